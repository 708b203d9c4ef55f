import Verif.Lemmas.TupleStruct
import Verif.Lemmas.StructDef
/-!
# Tuple structures with flattened fields, on one stream

A flattened field of a tuple structure is replaced by an ordinary one whose type reads the way the flattened
structure does; on one stream this changes neither whether the structure is parsed nor its value.
-/
namespace Deluxe

variable {V : Type}

/-- The stream of an empty list of tokens, as `parse_empty` makes it. -/
def noToks : Stream := ⟨[], callSite, none⟩

/-- A flattened field as an ordinary one. -/
def Field.unflat (f : Field V) : Field V :=
  if f.isFlat then
    { f with
      flatten := none
      append := none
      rest := none
      item := { f.item with
        parse := fun _ s =>
          ((f.flatUnnamed.parse .unnamed 0 [s]).1, (f.flatUnnamed.parse .unnamed 0 [s]).2.headD s)
        missing := fun _ _ => (f.flatUnnamed.parse .unnamed 0 [noToks]).1 } }
  else f

/-- The structure without flattened fields. -/
def Fields.unflat (d : Fields V) : Fields V := { d with fields := d.fields.map Field.unflat }

/-- The values of a field do not depend on its number, on its name or on where it is missing. -/
structure Field.Steady (f : Field V) : Prop where
  missing : f.isFlat = false → ∀ n sp n' sp' v, f.item.missing n sp = .ok v → f.item.missing n' sp' = .ok v
  index : f.isFlat = true → ∀ i j s v l, f.flatUnnamed.parse .unnamed i [s] = (.ok v, l) →
    f.flatUnnamed.parse .unnamed j [s] = (.ok v, l) ∧ l.length = 1
  empty : f.isFlat = true → ∀ v l, f.flatUnnamed.parse .unnamed 0 [noToks] = (.ok v, l) → l = [noToks]

theorem unflat_of_flat {f : Field V} (h : f.isFlat = true) :
    f.unflat = { f with
      flatten := none
      append := none
      rest := none
      item := { f.item with
        parse := fun _ s =>
          ((f.flatUnnamed.parse .unnamed 0 [s]).1, (f.flatUnnamed.parse .unnamed 0 [s]).2.headD s)
        missing := fun _ _ => (f.flatUnnamed.parse .unnamed 0 [noToks]).1 } } := by
  rw [Field.unflat, if_pos h]

theorem unflat_of_not {f : Field V} (h : f.isFlat = false) : f.unflat = f := by
  rw [Field.unflat, if_neg (by simp [h])]

section
variable (f : Field V)

theorem unflat_isFlat : f.unflat.isFlat = false := by
  cases h : f.isFlat with
  | true => rw [unflat_of_flat h]; rfl
  | false => rw [unflat_of_not h, h]

theorem unflat_isContainer : f.unflat.isContainer = f.isContainer := by
  unfold Field.unflat; split <;> rfl

theorem unflat_isParsable : f.unflat.isParsable = f.isParsable := by
  unfold Field.unflat; split <;> rfl

theorem unflat_default : f.unflat.default = f.default := by
  unfold Field.unflat; split <;> rfl

theorem unflat_transforms : f.unflat.transforms = f.transforms := by
  unfold Field.unflat; split <;> rfl

theorem unflat_set : f.unflat.set = f.set := by
  funext st errs
  simp only [Field.set, unflat_default, unflat_transforms]

theorem unflat_noAppendRest : f.unflat.append.getD false = false ∧ f.unflat.rest.getD false = false := by
  have := unflat_isFlat f
  simp only [Field.isFlat, Bool.or_eq_false_iff] at this
  exact ⟨this.1.2, this.2⟩
end

theorem unflat_noFlat (fields : List (Field V)) : NoFlat (fields.map Field.unflat) := by
  intro f hf
  obtain ⟨g, _, rfl⟩ := List.mem_map.1 hf
  exact unflat_isFlat g

theorem unflat_countP (fields : List (Field V)) :
    (fields.map Field.unflat).countP (·.isParsable) = fields.countP (·.isParsable) := by
  rw [List.countP_map]
  congr 1
  funext f
  exact unflat_isParsable f

theorem unflat_rank (fields : List (Field V)) (k : Nat) :
    rank (fields.map Field.unflat) k = rank fields k := by
  rw [rank, ← List.map_take, unflat_countP, rank]

theorem unflat_nthArm {fields : List (Field V)} (h : NoAppendRest fields) (i : Nat) :
    nthArm (fields.map Field.unflat) i = (nthArm fields i).map fun x => (x.1.unflat, x.2) := by
  cases ha : nthArm fields i with
  | some x =>
    obtain ⟨f, k⟩ := x
    obtain ⟨h1, h2, h3⟩ := (nthArm_some h).1 ha
    rw [(nthArm_some (unflat_noFlat fields).noAppendRest (f := f.unflat) (k := k)).2
      ⟨by rw [List.getElem?_map, h1]; rfl, by rw [unflat_isParsable, h2], by rw [unflat_rank, h3]⟩]
    rfl
  | none =>
    cases hb : nthArm (fields.map Field.unflat) i with
    | none => rfl
    | some x =>
      obtain ⟨f, k⟩ := x
      obtain ⟨h1, h2, h3⟩ := (nthArm_some (unflat_noFlat fields).noAppendRest).1 hb
      rw [List.getElem?_map, Option.map_eq_some_iff] at h1
      obtain ⟨g, hg, rfl⟩ := h1
      rw [unflat_isParsable] at h2
      rw [unflat_rank] at h3
      rw [(nthArm_some h).2 ⟨hg, h2, h3⟩] at ha
      cases ha

/-! ## The loop -/

theorem errors_new {e : Errors} (h : e.toList = []) : e = Errors.new := by
  rcases e with ⟨_ | x⟩
  · rfl
  · simp [Errors.toList, SynErr.toList] at h

/-- The outcome without errors. -/
def fine {β : Type} (x : Res β × (Acc (Slots V × Nat) × List Stream)) : Option (β × Slots V × List Stream) :=
  match x with
  | (.ok b, (acc, l)) => if acc.errs.toList = [] then some (b, acc.val.1, l) else none
  | _ => none

theorem fine_some {β : Type} {x : Res β × (Acc (Slots V × Nat) × List Stream)} {y} (h : fine x = some y) :
    ∃ i, x = (.ok y.1, (⟨(y.2.1, i), Errors.new⟩, y.2.2)) := by
  obtain ⟨r, ⟨⟨S, i⟩, errs⟩, l⟩ := x
  cases r with
  | ok b =>
    simp only [fine] at h
    split at h
    · rename_i he
      cases h
      exact ⟨i, by rw [errors_new he]⟩
    · cases h
  | err e => cases h
  | panic => cases h

theorem fine_bad {β : Type} {x : Res β × (Acc (Slots V × Nat) × List Stream)} (h : x.2.1.errs.toList ≠ []) :
    fine x = none := by
  obtain ⟨r, acc, l⟩ := x
  cases r with
  | ok b => simp only [fine, if_neg h]
  | err e => rfl
  | panic => rfl

theorem fine_none_ok {β : Type} {b : β} {y : Acc (Slots V × Nat) × List Stream} (h : fine (.ok b, y) = none) :
    y.1.errs.toList ≠ [] := by
  intro he
  obtain ⟨acc, l⟩ := y
  simp only [fine, if_pos he] at h
  cases h

theorem unnamedStep_bad (d : Fields V) (i : Nat) (acc : Acc (Slots V × Nat)) (l : List Stream)
    (h : acc.errs.toList ≠ []) : (unnamedStep d i (acc, l)).2.1.errs.toList ≠ [] := by
  simp only [unnamedStep]
  split
  · exact h
  · split
    · exact h
    · simp [SynErr.toList]
    · exact h

theorem tupleLoop_bad (d : Fields V) : ∀ (rem c : Nat) (acc : Acc (Slots V × Nat)) (l : List Stream),
    acc.errs.toList ≠ [] → (tupleLoop (unnamedStep d) rem c (acc, l)).2.1.errs.toList ≠ [] := by
  intro rem
  induction rem with
  | zero =>
    intro c acc l h
    cases l with
    | nil => simpa [tupleLoop] using h
    | cons s rest =>
      rw [tupleLoop_cons]
      split <;> exact h
  | succ rem ih =>
    intro c acc l h
    cases l with
    | nil => simpa [tupleLoop] using h
    | cons s rest =>
      rw [tupleLoop_cons]
      split
      · exact h
      · have h1 := unnamedStep_bad d c acc (s :: rest) h
        simp only
        generalize unnamedStep d c (acc, s :: rest) = x at h1
        obtain ⟨r, acc1, l1⟩ := x
        cases r with
        | err e => exact h1
        | panic => exact h1
        | ok u =>
          simp only
          split
          · exact ih _ _ _ h1
          · have h2 : (onHead (κ := Acc (Slots V × Nat)) parseComma (acc1, l1)).2.1 = acc1 := by
              cases l1 <;> rfl
            generalize onHead (κ := Acc (Slots V × Nat)) parseComma (acc1, l1) = y at h2
            obtain ⟨r, acc2, l2⟩ := y
            simp only at h2
            subst h2
            cases r with
            | ok _ => exact ih _ _ _ h1
            | err _ => exact h1
            | panic => exact h1

variable {d : Fields V}

theorem unnamedStep_sim (hn : NoAppendRest d.fields) (hs : ∀ f ∈ d.fields, f.Steady) (i : Nat) (S : Slots V)
    (i1 i2 : Nat) (s : Stream) :
    fine (unnamedStep d i (⟨(S, i1), Errors.new⟩, [s])) =
      fine (unnamedStep d.unflat i (⟨(S, i2), Errors.new⟩, [s])) := by
  simp only [unnamedStep]
  rw [show d.unflat.fields = d.fields.map Field.unflat from rfl, unflat_nthArm hn]
  cases ha : nthArm d.fields i with
  | none => rfl
  | some x =>
    obtain ⟨f, k⟩ := x
    have hst := hs f (List.mem_of_getElem? ((nthArm_some hn).1 ha).1)
    simp only [Option.map_some]
    cases hf : f.isFlat with
    | false =>
      rw [unflat_of_not hf]
      have hcall : ∀ n, unnamedCall f n [s] =
          ((f.item.parse .unnamed s).1, [(f.item.parse .unnamed s).2]) := by
        intro n
        simp only [unnamedCall, hf, Bool.false_eq_true, if_false]
      rw [hcall, hcall]
      generalize f.item.parse .unnamed s = x
      obtain ⟨r, s'⟩ := x
      cases r <;> simp [fine, SynErr.toList]
    | true =>
      have hu := unflat_isFlat f
      simp only [unnamedCall, hf, hu, Bool.false_eq_true, if_true, if_false]
      rw [unflat_of_flat hf]
      simp only
      cases h1 : f.flatUnnamed.parse .unnamed i1 [s] with
      | mk r1 l1 =>
        cases h0 : f.flatUnnamed.parse .unnamed 0 [s] with
        | mk r0 l0 =>
          cases r0 with
          | ok v =>
            obtain ⟨h2, h3⟩ := hst.index hf 0 i1 s v l0 h0
            rw [h1] at h2
            cases h2
            obtain ⟨s', rfl⟩ := List.length_eq_one_iff.1 h3
            simp [fine]
          | err e =>
            cases r1 with
            | ok v => rw [(hst.index hf i1 0 s v l1 h1).1] at h0; cases h0
            | err e' => simp [fine, SynErr.toList]
            | panic => simp [fine, SynErr.toList]
          | panic =>
            cases r1 with
            | ok v => rw [(hst.index hf i1 0 s v l1 h1).1] at h0; cases h0
            | err e' => simp [fine, SynErr.toList]
            | panic => simp [fine]

theorem unnamedStep_one (hn : NoAppendRest d.fields) (hs : ∀ f ∈ d.fields, f.Steady) {i : Nat} {acc : Acc (Slots V × Nat)}
    {s : Stream} {y} (h : fine (unnamedStep d i (acc, [s])) = some y) : ∃ s', y.2.2 = [s'] := by
  obtain ⟨j, h⟩ := fine_some h
  simp only [unnamedStep] at h
  cases ha : nthArm d.fields i with
  | none => rw [ha] at h; cases h
  | some x =>
    obtain ⟨f, k⟩ := x
    have hst := hs f (List.mem_of_getElem? ((nthArm_some hn).1 ha).1)
    rw [ha] at h
    simp only at h
    cases hf : f.isFlat with
    | false =>
      have hcall : ∀ n, unnamedCall f n [s] =
          ((f.item.parse .unnamed s).1, [(f.item.parse .unnamed s).2]) := by
        intro n
        simp only [unnamedCall, hf, Bool.false_eq_true, if_false]
      rw [hcall] at h
      generalize f.item.parse .unnamed s = x at h
      obtain ⟨r, s'⟩ := x
      cases r with
      | ok v => simp only [Prod.mk.injEq] at h; exact ⟨s', h.2.2.symm⟩
      | err e => simp only [Prod.mk.injEq] at h; exact ⟨_, h.2.2.symm⟩
      | panic => simp at h
    | true =>
      simp only [unnamedCall, hf, if_true] at h
      cases h1 : f.flatUnnamed.parse .unnamed acc.val.2 [s] with
      | mk r1 l1 =>
        rw [h1] at h
        cases r1 with
        | ok v =>
          simp only [Prod.mk.injEq] at h
          obtain ⟨s', hs'⟩ := List.length_eq_one_iff.1 (hst.index hf _ 0 s v l1 h1).2
          exact ⟨s', by rw [← h.2.2, hs']⟩
        | err e =>
          simp only [Prod.mk.injEq, Acc.mk.injEq] at h
          exact absurd (congrArg Errors.inner h.2.1.2) (Errors.pushSyn_inner_ne _ _)
        | panic => simp at h

/-- The rest of the loop after a step. -/
def afterStep (e : Fields V) (rem c : Nat) (s : Stream) (x : Res Unit × (Acc (Slots V × Nat) × List Stream)) :
    Res (Nat × Bool) × (Acc (Slots V × Nat) × List Stream) :=
  match x with
  | (.ok (), st1) =>
    if (st1.2.headD s).isEmpty || rem == 0 then tupleLoop (unnamedStep e) rem (c + 1) st1
    else match onHead parseComma st1 with
      | (.ok (), st2) => tupleLoop (unnamedStep e) rem (c + 1) st2
      | (.err e, st2) => (.err e, st2)
      | (.panic, st2) => (.panic, st2)
  | (.err e, st1) => (.err e, st1)
  | (.panic, st1) => (.panic, st1)

theorem tupleLoop_succ (e : Fields V) (rem c : Nat) (acc : Acc (Slots V × Nat)) (s : Stream) :
    tupleLoop (unnamedStep e) (rem + 1) c (acc, [s]) =
      if s.isEmpty then (.ok (c, false), (acc, [s])) else afterStep e rem c s (unnamedStep e c (acc, [s])) := by
  rw [tupleLoop_cons]
  simp only [afterStep]
  split
  · rfl
  · generalize unnamedStep e c (acc, [s]) = x
    obtain ⟨r, st⟩ := x
    cases r with
    | ok u =>
      simp only
      generalize onHead (κ := Acc (Slots V × Nat)) parseComma st = y
      obtain ⟨r, st2⟩ := y
      cases r <;> rfl
    | err _ => rfl
    | panic => rfl

theorem afterStep_bad (e : Fields V) (rem c : Nat) (s : Stream) (x : Res Unit × (Acc (Slots V × Nat) × List Stream))
    (hx : fine x = none) : fine (afterStep e rem c s x) = none := by
  obtain ⟨r, acc1, l1⟩ := x
  cases r with
  | err e => rfl
  | panic => rfl
  | ok u =>
    have h1 := fine_none_ok hx
    simp only [afterStep]
    by_cases hb : ((l1.headD s).isEmpty || rem == 0) = true
    · rw [if_pos hb]
      exact fine_bad (tupleLoop_bad e _ _ _ _ h1)
    · rw [if_neg hb]
      have h2 : (onHead (κ := Acc (Slots V × Nat)) parseComma (acc1, l1)).2.1 = acc1 := by
        cases l1 <;> rfl
      generalize onHead (κ := Acc (Slots V × Nat)) parseComma (acc1, l1) = y at h2
      obtain ⟨r, acc2, l2⟩ := y
      simp only at h2
      subst h2
      cases r with
      | ok _ => exact fine_bad (tupleLoop_bad e _ _ _ _ h1)
      | err _ => rfl
      | panic => rfl

theorem tupleLoop_sim (hn : NoAppendRest d.fields) (hs : ∀ f ∈ d.fields, f.Steady) : ∀ (rem c : Nat) (S : Slots V)
    (i1 i2 : Nat) (s : Stream),
    fine (tupleLoop (unnamedStep d) rem c (⟨(S, i1), Errors.new⟩, [s])) =
      fine (tupleLoop (unnamedStep d.unflat) rem c (⟨(S, i2), Errors.new⟩, [s])) := by
  intro rem
  induction rem with
  | zero =>
    intro c S i1 i2 s
    rw [tupleLoop_cons, tupleLoop_cons]
    split <;> simp [fine]
  | succ rem ih =>
    intro c S i1 i2 s
    rw [tupleLoop_succ, tupleLoop_succ]
    split
    · simp [fine]
    · have hstep := unnamedStep_sim hn hs c S i1 i2 s
      cases hf : fine (unnamedStep d c (⟨(S, i1), Errors.new⟩, [s])) with
      | none =>
        rw [hf] at hstep
        rw [afterStep_bad _ _ _ _ _ hf, afterStep_bad _ _ _ _ _ hstep.symm]
      | some y =>
        obtain ⟨s', hs'⟩ := unnamedStep_one hn hs hf
        rw [hf] at hstep
        obtain ⟨j1, e1⟩ := fine_some hf
        obtain ⟨j2, e2⟩ := fine_some hstep.symm
        obtain ⟨u, S', l'⟩ := y
        simp only at hs' e1 e2
        subst hs'
        rw [e1, e2]
        simp only [afterStep, List.headD_cons]
        by_cases hb : (s'.isEmpty || rem == 0) = true
        · simp only [hb, ↓reduceIte]
          exact ih _ _ _ _ _
        · simp only [hb, onHead]
          simp only [Bool.false_eq_true, ↓reduceIte]
          generalize parseComma s' = x
          obtain ⟨r, s2⟩ := x
          cases r with
          | ok _ => exact ih _ _ _ _ _
          | err _ => rfl
          | panic => rfl

/-- The positional loop on one stream. -/
theorem parseTupleStruct_one (d : Fields V) (n : Nat) (acc : Acc (Slots V × Nat)) (s : Stream) :
    parseTupleStruct (unnamedStep d) n (acc, [s]) =
      match tupleLoop (unnamedStep d) n 0 (acc, [s]) with
      | (.ok (c, _), st) => (.ok c, st)
      | (.err e, st) => (.err e, st)
      | (.panic, st) => (.panic, st) := by
  simp only [parseTupleStruct, List.length_singleton, parseTupleStruct.go, Nat.sub_zero]
  generalize tupleLoop (unnamedStep d) n 0 (acc, [s]) = x
  obtain ⟨r, k, l⟩ := x
  cases r with
  | ok c =>
    obtain ⟨c, b⟩ := c
    cases b with
    | true => rfl
    | false => cases l <;> rfl
  | err _ => rfl
  | panic => rfl

/-! ## After the loop -/

/-- The outcome of the pass for missing fields without errors. -/
def fineMissing (x : Res (Slots V × Errors)) : Option (Slots V) :=
  match x with
  | .ok (S, errs) => if errs.toList = [] then some S else none
  | _ => none

theorem fineMissing_map (x : Res (Slots V × Errors)) (st : FieldStatus V) :
    fineMissing (x.map fun y => (st :: y.1, y.2)) = (fineMissing x).map (st :: ·) := by
  cases x with
  | ok y =>
    simp only [Res.map, fineMissing]
    split <;> rfl
  | err _ => rfl
  | panic => rfl

section
variable [Env]

theorem missingUnnamed_bad (mode : Mode) (l : List Stream) : ∀ (fs : List (Field V)) (sts : Slots V) (errs : Errors)
    (index cur extra : Nat), errs.toList ≠ [] →
    fineMissing (missingUnnamed d mode l fs sts errs index cur extra) = none := by
  intro fs
  induction fs with
  | nil => intro sts errs index cur extra h; simp [missingUnnamed, fineMissing, h]
  | cons f fs ih =>
    intro sts errs index cur extra h
    cases sts with
    | nil => simp [missingUnnamed, fineMissing, h]
    | cons st sts =>
      have hp : ∀ e : SynErr, (errs.pushSyn e).toList ≠ [] := by intro e; simp [SynErr.toList]
      simp only [missingUnnamed]
      split
      · rw [fineMissing_map, ih _ _ _ _ _ h]; rfl
      · split
        · split
          · split
            · rw [fineMissing_map, ih _ _ _ _ _ h]; rfl
            · rw [fineMissing_map, ih _ _ _ _ _ (hp _)]; rfl
            · rfl
            · rfl
          · split
            · rw [fineMissing_map, ih _ _ _ _ _ h]; rfl
            · rw [fineMissing_map, ih _ _ _ _ _ (hp _)]; rfl
            · rfl
        · rw [fineMissing_map, ih _ _ _ _ _ h]; rfl

omit [Env] in
/-- A flat field that was not reached and an ordinary one that is missing. -/
theorem emptyFlat_ok {f : Field V} (hf : f.isFlat = true) (hs : f.Steady) (sp : Span) (i : Nat) (v : V) :
    emptyFlat sp f i = .ok (.ok v) ↔ (f.flatUnnamed.parse .unnamed 0 [noToks]).1 = .ok v := by
  have hpe : emptyFlat sp f i = .ok (.ok v) ↔ ∃ l, f.flatUnnamed.parse .unnamed i [noToks] = (.ok v, l) ∧
      (l.headD noToks).unexp = none ∧ (l.headD noToks).toks = [] := by
    simp only [emptyFlat, parseEmpty, parse2]
    rw [show (⟨[], callSite, none⟩ : Stream) = noToks from rfl]
    generalize f.flatUnnamed.parse .unnamed i [noToks] = x
    obtain ⟨r, l⟩ := x
    cases r with
    | panic => simp
    | err e =>
      simp only
      cases (l.headD noToks).unexp with
      | some _ => simp
      | none => cases (l.headD noToks).toks <;> simp
    | ok w =>
      simp only
      cases hu : (l.headD noToks).unexp with
      | some sp =>
        refine ⟨fun h => by simp at h, ?_⟩
        rintro ⟨l', h, h1, _⟩
        cases h
        rw [hu] at h1
        cases h1
      | none =>
        cases ht : (l.headD noToks).toks with
        | nil =>
          constructor
          · intro h
            simp only [Res.ok.injEq, Except.ok.injEq] at h
            subst h
            exact ⟨l, rfl, hu, ht⟩
          · rintro ⟨l', h, _⟩
            cases h
            rfl
        | cons _ _ =>
          refine ⟨fun h => by simp at h, ?_⟩
          rintro ⟨l', h, _, h2⟩
          cases h
          rw [ht] at h2
          cases h2
  rw [hpe]
  constructor
  · rintro ⟨l, h, _⟩
    rw [(hs.index hf i 0 _ _ _ h).1]
  · intro h
    cases hx : f.flatUnnamed.parse .unnamed 0 [noToks] with
    | mk r l =>
      rw [hx] at h
      simp only at h
      subst h
      have := hs.empty hf _ _ hx
      subst this
      exact ⟨_, (hs.index hf 0 i _ _ _ hx).1, rfl, rfl⟩

theorem missingUnnamed_sim (mode mode' : Mode) (l l' : List Stream) : ∀ (fs : List (Field V)), (∀ f ∈ fs, f.Steady) →
    ∀ (sts : Slots V) (index cur extra index' cur' extra' : Nat),
    fineMissing (missingUnnamed d mode l fs sts Errors.new index cur extra) =
      fineMissing (missingUnnamed d.unflat mode' l' (fs.map Field.unflat) sts Errors.new index' cur' extra') := by
  intro fs
  induction fs with
  | nil => intro _ sts index cur extra index' cur' extra'; simp [missingUnnamed]
  | cons f fs ih =>
    intro hs sts index cur extra index' cur' extra'
    have hst := hs f (List.mem_cons_self ..)
    have ih := ih fun x hx => hs x (List.mem_cons_of_mem _ hx)
    cases sts with
    | nil => simp [missingUnnamed]
    | cons st sts =>
      have hcs : containerSet d.unflat f.unflat st = containerSet d f st := by
        simp only [containerSet, unflat_isContainer]; rfl
      have hp : ∀ e : SynErr, (Errors.new.pushSyn e).toList ≠ [] := by intro e; simp [SynErr.toList]
      simp only [List.map_cons, missingUnnamed, hcs, unflat_isContainer, unflat_default, unflat_isFlat,
        Bool.false_eq_true, if_false]
      rw [show d.unflat.transparent = d.transparent from rfl, show d.unflat.target = d.target from rfl]
      split
      · rw [fineMissing_map, fineMissing_map, ih]
      · split
        · cases hf : f.isFlat with
          | true =>
            simp only [if_true]
            rw [unflat_of_flat hf]
            simp only
            cases h0 : (f.flatUnnamed.parse .unnamed 0 [noToks]).1 with
            | ok v =>
              rw [(emptyFlat_ok hf hst d.emptySpan index v).2 h0]
              simp only
              rw [fineMissing_map, fineMissing_map, ih]
            | err e =>
              simp only
              rw [fineMissing_map, missingUnnamed_bad _ _ _ _ _ _ _ _ (hp e)]
              cases he : emptyFlat d.emptySpan f index with
              | ok x =>
                cases x with
                | ok v => rw [(emptyFlat_ok hf hst d.emptySpan index v).1 he] at h0; cases h0
                | error e' => simp only; rw [fineMissing_map, missingUnnamed_bad _ _ _ _ _ _ _ _ (hp e')]; rfl
              | err _ => rfl
              | panic => rfl
            | panic =>
              cases he : emptyFlat d.emptySpan f index with
              | ok x =>
                cases x with
                | ok v => rw [(emptyFlat_ok hf hst d.emptySpan index v).1 he] at h0; cases h0
                | error e' => simp only; rw [fineMissing_map, missingUnnamed_bad _ _ _ _ _ _ _ _ (hp e')]; rfl
              | err _ => rfl
              | panic => rfl
          | false =>
            rw [unflat_of_not hf]
            simp only [Bool.false_eq_true, if_false]
            cases h0 : f.item.missing (missingIndexName d (index + cur + extra)) (mode.toFullSpan l) with
            | ok v =>
              rw [hst.missing hf _ _ _ _ v h0]
              simp only
              rw [fineMissing_map, fineMissing_map, ih]
            | err e =>
              simp only
              rw [fineMissing_map, missingUnnamed_bad _ _ _ _ _ _ _ _ (hp e)]
              split
              · rename_i v hv
                rw [hst.missing hf _ _ _ _ v hv] at h0
                cases h0
              · rw [fineMissing_map, missingUnnamed_bad _ _ _ _ _ _ _ _ (hp _)]
              · rfl
            | panic =>
              simp only
              split
              · rename_i v hv
                rw [hst.missing hf _ _ _ _ v hv] at h0
                cases h0
              · rw [fineMissing_map, missingUnnamed_bad _ _ _ _ _ _ _ _ (hp _)]; rfl
              · rfl
        · rw [fineMissing_map, fineMissing_map, ih]

omit [Env] in
theorem setPass_unflat (fs : List (Field V)) (sts : Slots V) (errs : Errors) :
    setPass (fs.map Field.unflat) sts errs = setPass fs sts errs := by
  induction fs generalizing sts errs with
  | nil => simp [setPass]
  | cons f fs ih =>
    cases sts with
    | nil => simp [setPass]
    | cons st sts => simp only [List.map_cons, setPass, unflat_set, ih]

omit [Env] in
theorem finish_bad {slots : Slots V} {errs : Errors} (h : errs.toList ≠ []) (fs : List (Field V)) (vs : List V) :
    finish d (setPass fs slots errs).1 (setPass fs slots errs).2 ≠ .ok vs := by
  obtain ⟨errs', h1, h2⟩ := setPass_eq fs slots errs
  rw [h1]
  intro hf
  have := (finish_eq d (List.zipWith (fun f st => (setOut f st).1) fs slots) errs').1 (by rw [h2]; simp [h])
  simp only at hf
  rw [hf] at this
  obtain ⟨e, h, _⟩ := this
  cases h

theorem postUnnamed_ok (mode : Mode) (l : List Stream) (S : Slots V) (index : Nat) (errs : Errors) (vs : List V) :
    postUnnamed d mode l S index errs = .ok vs ↔ ∃ S',
      fineMissing (missingUnnamed d mode l d.fields S errs index 0 0) = some S' ∧
        finish d (setPass d.fields S' Errors.new).1 (setPass d.fields S' Errors.new).2 = .ok vs := by
  simp only [postUnnamed]
  cases missingUnnamed d mode l d.fields S errs index 0 0 with
  | ok x =>
    obtain ⟨S', errs'⟩ := x
    simp only [fineMissing]
    by_cases he : errs'.toList = []
    · rw [if_pos he, errors_new he]
      simp
    · rw [if_neg he]
      simp [finish_bad he]
  | err e => simp [fineMissing]
  | panic => simp [fineMissing]

theorem postUnnamed_sim (hs : ∀ f ∈ d.fields, f.Steady) (mode mode' : Mode) (l l' : List Stream) (S : Slots V)
    (index index' : Nat) (vs : List V) :
    postUnnamed d mode l S index Errors.new = .ok vs ↔
      postUnnamed d.unflat mode' l' S index' Errors.new = .ok vs := by
  rw [postUnnamed_ok, postUnnamed_ok]
  rw [missingUnnamed_sim mode mode' l l' d.fields hs S index 0 0 index' 0 0]
  rw [show d.unflat.fields = d.fields.map Field.unflat from rfl, ]
  simp only [setPass_unflat]
  rfl

theorem postUnnamed_bad (mode : Mode) (l : List Stream) (S : Slots V) (index : Nat) {errs : Errors}
    (h : errs.toList ≠ []) (vs : List V) : postUnnamed d mode l S index errs ≠ .ok vs := by
  rw [Ne, postUnnamed_ok]
  rintro ⟨S', h1, _⟩
  rw [missingUnnamed_bad _ _ _ _ _ _ _ _ h] at h1
  cases h1

/-- Success on one stream, in terms of the loop without errors. -/
theorem unnamedFlat_fine (hpos : 0 < d.fields.countP (·.isParsable)) (mode : Mode) (index : Nat) (s : Stream)
    (vs : List V) (l : List Stream) :
    unnamedFlat d mode index [s] = (.ok vs, l) ↔ ∃ (y : (Nat × Bool) × Slots V × List Stream) (i : Nat), y.2.2 = l ∧
      tupleLoop (unnamedStep d) (d.fields.countP (·.isParsable)) 0 (⟨(d.init, index), Errors.new⟩, [s]) =
        (.ok y.1, (⟨(y.2.1, i), Errors.new⟩, y.2.2)) ∧ postUnnamed d mode y.2.2 y.2.1 i Errors.new = .ok vs := by
  simp only [unnamedFlat]
  rw [if_neg (by omega), parseTupleStruct_one]
  generalize tupleLoop (unnamedStep d) (d.fields.countP (·.isParsable)) 0
    (⟨(d.init, index), Errors.new⟩, [s]) = x
  obtain ⟨r, ⟨⟨S, i⟩, errs⟩, l1⟩ := x
  cases r with
  | panic => simp
  | err e =>
    simp only [Prod.mk.injEq]
    constructor
    · rintro ⟨h, _⟩
      exact absurd h (postUnnamed_bad _ _ _ _ (by simp [SynErr.toList]) _)
    · rintro ⟨_, _, _, h, _⟩
      cases h.1
  | ok c =>
    obtain ⟨c, b⟩ := c
    simp only [Prod.mk.injEq, Res.ok.injEq, Acc.mk.injEq]
    constructor
    · rintro ⟨h, rfl⟩
      by_cases he : errs.toList = []
      · have := errors_new he
        subst this
        exact ⟨((c, b), S, l1), i, rfl, ⟨rfl, ⟨⟨rfl, rfl⟩, rfl⟩, rfl⟩, h⟩
      · exact absurd h (postUnnamed_bad _ _ _ _ he _)
    · rintro ⟨⟨y1, y2, y3⟩, i', rfl, ⟨rfl, ⟨⟨rfl, rfl⟩, rfl⟩, rfl⟩, h⟩
      exact ⟨h, rfl⟩

/-- On one stream a tuple structure is read like the one without flattened fields. -/
theorem unnamedFlat_unflat (hn : NoAppendRest d.fields) (hs : ∀ f ∈ d.fields, f.Steady)
    (hpos : 0 < d.fields.countP (·.isParsable)) (mode mode' : Mode) (index index' : Nat) (s : Stream) (vs : List V)
    (l : List Stream) :
    unnamedFlat d mode index [s] = (.ok vs, l) ↔ unnamedFlat d.unflat mode' index' [s] = (.ok vs, l) := by
  have hc : d.unflat.fields.countP (·.isParsable) = d.fields.countP (·.isParsable) := unflat_countP d.fields
  rw [unnamedFlat_fine hpos, unnamedFlat_fine (by rw [hc]; exact hpos), hc]
  have hi : d.unflat.init = d.init := by simp [Fields.init, Fields.unflat]
  rw [hi]
  have hsim := tupleLoop_sim hn hs (d.fields.countP (·.isParsable)) 0 d.init index index' s
  constructor
  · rintro ⟨y, i, rfl, h1, h2⟩
    rw [h1, show fine _ = some y by simp [fine, Errors.new, Errors.toList]] at hsim
    obtain ⟨j, hj⟩ := fine_some hsim.symm
    exact ⟨y, j, rfl, hj, (postUnnamed_sim hs _ _ _ _ _ _ _ _).1 h2⟩
  · rintro ⟨y, i, rfl, h1, h2⟩
    rw [h1, show fine (Res.ok y.1, _, y.2.2) = some y by simp [fine, Errors.new, Errors.toList]] at hsim
    obtain ⟨j, hj⟩ := fine_some hsim
    exact ⟨y, j, rfl, hj, (postUnnamed_sim hs _ _ _ _ _ _ _ _).2 h2⟩

end

/-! ## Reading values one after the other -/

/-- Reads values with commas between them, as many as there are; not the comma after the last one. -/
def readAll : List (M Stream V) → Stream → Option (List V × Stream)
  | [], s => some ([], s)
  | p :: ps, s =>
    if s.toks = [] then some ([], s)
    else
      match p s with
      | (.ok v, s1) =>
        if s1.toks = [] ∨ ps = [] then (readAll ps s1).map fun x => (v :: x.1, x.2)
        else
          match parseComma s1 with
          | (.ok (), s2) => (readAll ps s2).map fun x => (v :: x.1, x.2)
          | _ => none
      | _ => none

/-- Goes on reading after a value. -/
def readMore (ps : List (M Stream V)) (s : Stream) : Option (List V × Stream) :=
  if s.toks = [] ∨ ps = [] then readAll ps s
  else
    match parseComma s with
    | (.ok (), s2) => readAll ps s2
    | _ => none

theorem readAll_empty (ps : List (M Stream V)) {s : Stream} (h : s.toks = []) : readAll ps s = some ([], s) := by
  cases ps with
  | nil => rfl
  | cons p ps => rw [readAll, if_pos h]

theorem readAll_cons (p : M Stream V) (ps : List (M Stream V)) {s : Stream} (h : s.toks ≠ []) :
    readAll (p :: ps) s = match p s with
      | (.ok v, s1) => (readMore ps s1).map fun x => (v :: x.1, x.2)
      | _ => none := by
  rw [readAll, if_neg h]
  generalize p s = x
  obtain ⟨r, s1⟩ := x
  cases r with
  | err _ => rfl
  | panic => rfl
  | ok v =>
    simp only [readMore]
    by_cases h1 : s1.toks = [] ∨ ps = []
    · rw [if_pos h1, if_pos h1]
    · rw [if_neg h1, if_neg h1]
      generalize parseComma s1 = y
      obtain ⟨r, s2⟩ := y
      cases r <;> rfl

theorem readMore_empty (ps : List (M Stream V)) {s : Stream} (h : s.toks = []) : readMore ps s = some ([], s) := by
  rw [readMore, if_pos (.inl h), readAll_empty ps h]

theorem readAll_length {ps : List (M Stream V)} : ∀ {s : Stream} {xs s'}, readAll ps s = some (xs, s') →
    xs.length ≤ ps.length ∧ (xs.length < ps.length → s'.toks = []) := by
  induction ps with
  | nil => intro s xs s' h; cases h; simp
  | cons p ps ih =>
    intro s xs s' h
    by_cases h0 : s.toks = []
    · rw [readAll_empty _ h0] at h
      cases h
      simp [h0]
    · rw [readAll_cons _ _ h0] at h
      generalize p s = x at h
      obtain ⟨r, s1⟩ := x
      cases r with
      | err _ => cases h
      | panic => cases h
      | ok v =>
        simp only [readMore] at h
        have key : ∀ s2, (readAll ps s2).map (fun x => (v :: x.1, x.2)) = some (xs, s') →
            xs.length ≤ (p :: ps).length ∧ (xs.length < (p :: ps).length → s'.toks = []) := by
          intro s2 h2
          rw [Option.map_eq_some_iff] at h2
          obtain ⟨⟨ys, s3⟩, h3, h4⟩ := h2
          cases h4
          have := ih h3
          simp only [List.length_cons]
          exact ⟨by omega, fun h => this.2 (by omega)⟩
        split at h
        · exact key _ h
        · split at h
          · exact key _ h
          · cases h

/-- Reading by two lists of readers is reading by the first, then by the second. -/
theorem readAll_append {ps : List (M Stream V)} (hps : ps ≠ []) (qs : List (M Stream V)) : ∀ (s : Stream),
    readAll (ps ++ qs) s = (readAll ps s).bind fun x => (readMore qs x.2).map fun y => (x.1 ++ y.1, y.2) := by
  induction ps with
  | nil => exact absurd rfl hps
  | cons p ps ih =>
    intro s
    by_cases h0 : s.toks = []
    · rw [readAll_empty _ h0, readAll_empty _ h0]
      simp [readMore_empty qs h0]
    · rw [List.cons_append, readAll_cons _ _ h0, readAll_cons _ _ h0]
      generalize p s = x
      obtain ⟨r, s1⟩ := x
      cases r with
      | err _ => rfl
      | panic => rfl
      | ok v =>
        simp only
        by_cases h1 : s1.toks = []
        · rw [readMore_empty _ h1, readMore_empty _ h1]
          simp [readMore_empty qs h1]
        · cases ps with
          | nil =>
            rw [List.nil_append, show readMore ([] : List (M Stream V)) s1 = some ([], s1) by simp [readMore, readAll]]
            simp
          | cons q ps =>
            have ih := ih (by simp)
            simp only [readMore, h1, List.cons_append, reduceCtorEq, or_self, if_false]
            generalize parseComma s1 = y
            obtain ⟨r, s2⟩ := y
            cases r with
            | err _ => rfl
            | panic => rfl
            | ok _ =>
              simp only
              rw [← List.cons_append, ih]
              cases readAll (q :: ps) s2 with
              | none => rfl
              | some x =>
                simp only [Option.bind_some, Option.map_some, Option.map_map]
                rfl

/-- The readers of the fields of a tuple structure. -/
def readers (fields : List (Field V)) : List (M Stream V) :=
  (fields.filter (·.isParsable)).map (·.item.parse .unnamed)

theorem readers_append (a b : List (Field V)) : readers (a ++ b) = readers a ++ readers b := by
  simp [readers]

theorem readers_length (fields : List (Field V)) : (readers fields).length = fields.countP (·.isParsable) := by
  simp [readers, List.countP_eq_length_filter]

theorem filter_zipIdx (fields : List (Field V)) (n : Nat) :
    ((fields.zipIdx n).filter fun x => x.1.isParsable).map (·.1) = fields.filter (·.isParsable) := by
  induction fields generalizing n with
  | nil => rfl
  | cons f fields ih =>
    rw [List.zipIdx_cons, List.filter_cons, List.filter_cons]
    split
    · rw [List.map_cons, ih]
    · exact ih _

theorem tupleItem_readers {fields : List (Field V)} (h : NoAppendRest fields) {j : Nat} {p : M Stream V}
    (hp : (readers fields)[j]? = some p) : tupleItem fields j = p := by
  rw [readers, List.getElem?_map, Option.map_eq_some_iff] at hp
  obtain ⟨f, hf, rfl⟩ := hp
  rw [← filter_zipIdx fields 0, List.getElem?_map, Option.map_eq_some_iff] at hf
  obtain ⟨⟨g, k⟩, hg, rfl⟩ := hf
  rw [tupleItem, nthArm_eq h, hg]

theorem posReads_readAll {item : Nat → M Stream V} {len : Nat} {c s rs f c' full s'}
    (h : PosReads (fun i => recover (item i)) len c s rs f c' full s') :
    ∀ (ps : List (M Stream V)), ps.length = len - c → (∀ (j : Nat) p, ps[j]? = some p → item (c + j) = p) →
    (f = none → errMsgs (rs.map (·.1)) = [] → ∃ xs, rs.map (·.1) = xs.map .ok ∧ readAll ps s = some (xs, s')) ∧
    (∀ xs s'', readAll ps s = some (xs, s'') → f = none ∧ errMsgs (rs.map (·.1)) = []) := by
  have hrec : ∀ {c s b s1}, recover (item c) s = (.ok b, s1) →
      (∃ v, b = .ok v ∧ item c s = (.ok v, s1)) ∨ (∃ e s2, b = .error e ∧ item c s = (.err e, s2)) := by
    intro c s b s1 h
    simp only [recover] at h
    split at h
    · rename_i v s2 hv
      simp only [Prod.mk.injEq, Res.ok.injEq] at h
      obtain ⟨rfl, rfl⟩ := h
      exact .inl ⟨v, rfl, hv⟩
    · rename_i v s2 hv
      simp only [Prod.mk.injEq, Res.ok.injEq] at h
      obtain ⟨rfl, rfl⟩ := h
      exact .inr ⟨v, s2, rfl, hv⟩
    · simp at h
  have hps : ∀ {c : Nat} {ps : List (M Stream V)}, c < len → ps.length = len - c →
      (∀ (j : Nat) p, ps[j]? = some p → item (c + j) = p) → ∃ qs, ps = item c :: qs ∧ qs.length = len - (c + 1) ∧
        ∀ (j : Nat) p, qs[j]? = some p → item (c + 1 + j) = p := by
    intro c ps hc hl hi
    cases ps with
    | nil => simp at hl; omega
    | cons p qs =>
      refine ⟨qs, by rw [← hi 0 p rfl]; rfl, by simp at hl; omega, fun j q hq => ?_⟩
      have := hi (j + 1) q (by simpa using hq)
      rw [← this]; congr 1; omega
  have hne : ∀ (e : SynErr), e.toList ≠ [] := by intro e; simp [SynErr.toList]
  induction h with
  | done h0 =>
    intro ps hl hi
    refine ⟨fun _ _ => ⟨[], rfl, readAll_empty ps h0⟩, fun _ _ _ => ⟨rfl, rfl⟩⟩
  | full h0 hle =>
    intro ps hl hi
    have : ps = [] := List.length_eq_zero_iff.1 (by omega)
    subst this
    exact ⟨fun _ _ => ⟨[], rfl, rfl⟩, fun _ _ _ => ⟨rfl, rfl⟩⟩
  | @last c s b s1 rs f c' full s' h0 hc hit h1 _ ih =>
    intro ps hl hi
    obtain ⟨qs, rfl, hql, hqi⟩ := hps hc hl hi
    obtain ⟨i1, i2⟩ := ih qs hql hqi
    rw [readAll_cons _ _ h0]
    have hmore : readMore qs s1 = readAll qs s1 := by
      rw [readMore, if_pos]
      rcases h1 with h1 | h1
      · exact .inl h1
      · exact .inr (List.length_eq_zero_iff.1 (by omega))
    rcases hrec hit with ⟨v, rfl, hv⟩ | ⟨e, s2, rfl, hv⟩
    · rw [hv]
      simp only [hmore]
      constructor
      · intro hf he
        obtain ⟨xs, h3, h4⟩ := i1 hf (by simpa [errMsgs] using he)
        exact ⟨v :: xs, by simp [h3], by rw [h4]; rfl⟩
      · intro xs s'' hx
        rw [Option.map_eq_some_iff] at hx
        obtain ⟨⟨ys, s3⟩, h3, h4⟩ := hx
        obtain ⟨h5, h6⟩ := i2 _ _ h3
        exact ⟨h5, by simpa [errMsgs] using h6⟩
    · rw [hv]
      refine ⟨fun _ he => ?_, fun _ _ hx => by cases hx⟩
      simp [errMsgs, hne] at he
  | @more c s b s1 t rest rs f c' full s' h0 hc hit h1 hco _ ih =>
    intro ps hl hi
    obtain ⟨qs, rfl, hql, hqi⟩ := hps (by omega) hl hi
    obtain ⟨i1, i2⟩ := ih qs hql hqi
    rw [readAll_cons _ _ h0]
    have hmore : readMore qs s1 = readAll qs { s1 with toks := rest } := by
      rw [readMore, if_neg]
      · have := parseComma_comma hco rest s1.scope s1.unexp
        rw [← h1] at this
        rw [show s1 = ⟨s1.toks, s1.scope, s1.unexp⟩ from rfl, this]
      · rintro (h | h)
        · rw [h1] at h; cases h
        · subst h; simp at hql; omega
    rcases hrec hit with ⟨v, rfl, hv⟩ | ⟨e, s2, rfl, hv⟩
    · rw [hv]
      simp only [hmore]
      constructor
      · intro hf he
        obtain ⟨xs, h3, h4⟩ := i1 hf (by simpa [errMsgs] using he)
        exact ⟨v :: xs, by simp [h3], by rw [h4]; rfl⟩
      · intro xs s'' hx
        rw [Option.map_eq_some_iff] at hx
        obtain ⟨⟨ys, s3⟩, h3, h4⟩ := hx
        obtain ⟨h5, h6⟩ := i2 _ _ h3
        exact ⟨h5, by simpa [errMsgs] using h6⟩
    · rw [hv]
      refine ⟨fun _ he => ?_, fun _ _ hx => by cases hx⟩
      simp [errMsgs, hne] at he
  | @failItem c s e s1 h0 hc hit =>
    simp only [recover] at hit
    split at hit <;> simp at hit
  | @failSep c s b s1 t rest h0 hc hit h1 hco =>
    intro ps hl hi
    obtain ⟨qs, rfl, hql, hqi⟩ := hps (by omega) hl hi
    rw [readAll_cons _ _ h0]
    refine ⟨fun h => (by cases h), fun xs s'' hx => ?_⟩
    have hmore : readMore qs s1 = none := by
      rw [readMore, if_neg]
      · have := parseComma_noComma hco rest s1.scope s1.unexp
        rw [← h1] at this
        rw [show s1 = ⟨s1.toks, s1.scope, s1.unexp⟩ from rfl, this]
      · rintro (h | h)
        · rw [h1] at h; cases h
        · subst h; simp at hql; omega
    rcases hrec hit with ⟨v, rfl, hv⟩ | ⟨e, s2, rfl, hv⟩
    · rw [hv] at hx
      simp [hmore] at hx
    · rw [hv] at hx
      cases hx

/-! ## A tuple structure on one stream -/

/-- What the derive ensures of a tuple structure without `default`, and the parsers of the fields end and do not
depend on the number of the field. -/
structure TupleFine (d : Fields V) : Prop where
  accepted : Accepted d
  transparent : d.transparent = false
  target : d.target = none
  noAppendRest : NoAppendRest d.fields
  steady : ∀ f ∈ d.fields, f.Steady
  item : ∀ f ∈ d.fields, f.isFlat = false → Good (f.item.parse .unnamed)
  missing : ∀ f ∈ d.fields, ∀ n sp, f.item.missing n sp ≠ .panic
  flat : ∀ f ∈ d.fields, f.isFlat = true → ∀ i, Good (f.flatUnnamed.parse .unnamed i)
  some : 0 < d.fields.countP (·.isParsable)

/-- What the type of the field gives if there are no tokens for it. -/
def Field.absent (f : Field V) : Res V := f.unflat.item.missing [] 0

/-- The field ends up with the value `v` if `g` was read for it. -/
def Settles (d : Fields V) (f : Field V) (g : Option V) (v : V) : Prop :=
  Ends d f.unflat (g.map .ok) .panic f.absent 0 v

/-- The value read for the field at position `k`. -/
def readFor (fields : List (Field V)) (xs : List V) (f : Field V) (k : Nat) : Option V :=
  if f.isParsable then xs[rank fields k]? else none

/-- The values `vs` of the fields if the values `xs` were read. -/
def Fills (d : Fields V) (xs vs : List V) : Prop :=
  vs.length = d.fields.length ∧ ∀ (k : Nat) f, d.fields[k]? = some f → ∃ v, vs[k]? = some v ∧
    Settles d f (readFor d.fields xs f k) v

theorem TupleFine.unflat_good {d : Fields V} (h : TupleFine d) {f : Field V} (hf : f ∈ d.fields) :
    Good (f.unflat.item.parse .unnamed) ∧ ∀ n sp, f.unflat.item.missing n sp ≠ .panic := by
  cases hfl : f.isFlat with
  | false => rw [unflat_of_not hfl]; exact ⟨h.item f hf hfl, h.missing f hf⟩
  | true =>
    rw [unflat_of_flat hfl]
    have hg := h.flat f hf hfl 0
    refine ⟨fun s => ?_, fun _ _ => (hg [noToks]).1⟩
    obtain ⟨h1, h2⟩ := hg [s]
    refine ⟨h1, ?_⟩
    simp only
    generalize (f.flatUnnamed.parse .unnamed 0 [s]).2 = l at h2
    cases h2 with
    | cons ha _ => exact ha

theorem TupleFine.absent {d : Fields V} (h : TupleFine d) {f : Field V} (hf : f ∈ d.fields) (n : Str) (sp : Span)
    (v : V) : f.unflat.item.missing n sp = .ok v ↔ f.absent = .ok v := by
  rw [Field.absent]
  cases hfl : f.isFlat with
  | true => rw [unflat_of_flat hfl]
  | false =>
    rw [unflat_of_not hfl]
    exact ⟨fun hv => (h.steady f hf).missing hfl _ _ _ _ v hv, fun hv => (h.steady f hf).missing hfl _ _ _ _ v hv⟩

theorem ends_congr' {d d' : Fields V} {f : Field V} {g : Option (Except SynErr V)} {ms ms' : Res V} {i i' : Nat}
    {v : V} (ht : d.target = none) (ht' : d'.target = none) (ho : f.isContainer = true → d.obj = d'.obj)
    (hms : ∀ v, ms = .ok v ↔ ms' = .ok v) :
    Ends d f g .panic ms i v → Ends d' f g .panic ms' i' v := by
  rintro (⟨b, h1, h2⟩ | ⟨_, t, h, _⟩)
  · refine .inl ⟨b, ?_, h2⟩
    have hng : NotGiven d f g → NotGiven d' f g := by
      rintro (h | ⟨h1, h2⟩)
      · exact .inl h
      · exact .inr ⟨h1, fun ⟨a, b⟩ => h2 ⟨a, by rw [ho a]; exact b⟩⟩
    cases h1 with
    | item h1 h2 => exact .item h1 h2
    | flat h1 h2 => cases h2
    | container h1 h2 => exact .container h1 (ho h1 ▸ h2)
    | default h1 h2 => exact .default (hng h1) h2
    | missing h1 h2 h3 h4 h5 => exact .missing h1 h2 h3 ht' ((hms _).1 h5)
  · rw [ht] at h; cases h

/-- What a tuple structure makes of one stream. -/
theorem unnamedFlat_one [Env] {d : Fields V} (h : TupleFine d) (mode : Mode) (index : Nat) (s : Stream) (vs : List V)
    (l : List Stream) : unnamedFlat d mode index [s] = (.ok vs, l) ↔
      ∃ xs s', readAll (readers (d.fields.map Field.unflat)) s = some (xs, s') ∧ l = [s'] ∧ Fills d xs vs := by
  rw [unnamedFlat_unflat h.noAppendRest h.steady h.some mode mode index index]
  have hn : NoFlat d.unflat.fields := unflat_noFlat d.fields
  have hc : d.unflat.fields.countP (·.isParsable) = d.fields.countP (·.isParsable) := unflat_countP d.fields
  have hmem : ∀ f ∈ d.unflat.fields, ∃ g ∈ d.fields, g.unflat = f := fun f hf => List.mem_map.1 hf
  have ha : Accepted d.unflat := by
    refine ⟨fun f hf hp => ?_, fun t ht => ?_⟩
    · obtain ⟨g, hg, rfl⟩ := hmem f hf
      rw [unflat_isParsable] at hp
      rw [unflat_default, unflat_isContainer]
      exact h.accepted.filled g hg hp
    · rw [show d.unflat.target = d.target from rfl, h.target] at ht; cases ht
  have hm : ∀ f ∈ d.unflat.fields, ∀ n sp, f.item.missing n sp ≠ .panic := fun f hf => by
    obtain ⟨g, hg, rfl⟩ := hmem f hf
    exact (h.unflat_good hg).2
  have hgood : ∀ i, Good (recover (tupleItem d.unflat.fields i)) := by
    intro i
    refine recover_good ?_
    rw [tupleItem]
    cases ha : nthArm d.unflat.fields i with
    | none => exact Good.fail _
    | some x =>
      obtain ⟨f, k⟩ := x
      have hf := List.mem_of_getElem? ((nthArm_some hn.noAppendRest).1 ha).1
      obtain ⟨g, hg, rfl⟩ := hmem f hf
      exact (h.unflat_good hg).1
  obtain ⟨rs, fatal, c, full, s1, hr⟩ := PosReads.exists (len := d.unflat.fields.countP (·.isParsable)) hgood _ 0 s rfl
  have hall : PosReadsAll (fun i => recover (tupleItem d.unflat.fields i)) (d.unflat.fields.countP (·.isParsable)) 0 [s] rs
      fatal c [s1] := by
    cases fatal with
    | some e => exact .fail hr
    | none =>
      cases full with
      | true => exact .full hr
      | false =>
        have := PosReadsAll.next hr .nil
        rw [List.append_nil] at this
        exact this
  obtain ⟨u1, u2⟩ := unnamedFlat_ok d.unflat ha h.transparent hn hm (by rw [hc]; exact h.some) mode index hall vs
  obtain ⟨r1, r2⟩ := posReads_readAll hr (readers d.unflat.fields) (by rw [readers_length]; simp)
    (fun j p hp => by rw [Nat.zero_add]; exact tupleItem_readers hn.noAppendRest hp)
  have hfill : ∀ xs : List V, (vs.length = d.unflat.fields.length ∧ ∀ (i : Nat) f, d.unflat.fields[i]? = some f → ∃ v,
      vs[i]? = some v ∧ PosHolds d.unflat index (mode.toFullSpan [s1]) (xs.map .ok) f i v) ↔ Fills d xs vs := by
    intro xs
    have hg : ∀ (k : Nat) (f : Field V), posGiven d.unflat.fields (xs.map .ok) f.unflat k =
        (readFor d.fields xs f k).map .ok := by
      intro k f
      rw [posGiven, readFor, unflat_isParsable, show d.unflat.fields = d.fields.map Field.unflat from rfl, unflat_rank]
      split
      · rw [List.getElem?_map]
      · rfl
    have hms : ∀ {f : Field V}, f ∈ d.fields → ∀ k v, posMissing d.unflat index (mode.toFullSpan [s1]) f.unflat k = .ok v ↔
        f.absent = .ok v := fun hf k v => h.absent hf _ _ v
    constructor
    · rintro ⟨h1, h2⟩
      refine ⟨by simpa [Fields.unflat] using h1, fun k f hf => ?_⟩
      obtain ⟨v, hv, he⟩ := h2 k f.unflat (by rw [show d.unflat.fields = d.fields.map Field.unflat from rfl, List.getElem?_map, hf]; rfl)
      refine ⟨v, hv, ?_⟩
      rw [PosHolds, hg] at he
      exact ends_congr' (d := d.unflat) h.target h.target (fun _ => rfl) (hms (List.mem_of_getElem? hf) k) he
    · rintro ⟨h1, h2⟩
      refine ⟨by simpa [Fields.unflat] using h1, fun k f hf => ?_⟩
      rw [show d.unflat.fields = d.fields.map Field.unflat from rfl, List.getElem?_map, Option.map_eq_some_iff] at hf
      obtain ⟨f, hf, rfl⟩ := hf
      obtain ⟨v, hv, he⟩ := h2 k f hf
      refine ⟨v, hv, ?_⟩
      rw [PosHolds, hg]
      exact ends_congr' (d' := d.unflat) h.target h.target (fun _ => rfl) (fun v => (hms (List.mem_of_getElem? hf) k v).symm) he
  constructor
  · intro heq
    rw [heq] at u1 u2
    obtain ⟨hf, he, h3⟩ := u2.1 rfl
    obtain ⟨xs, h4, h5⟩ := r1 hf he
    rw [h4] at h3
    exact ⟨xs, s1, h5, u1, (hfill xs).1 h3⟩
  · rintro ⟨xs, s', h1, rfl, h3⟩
    obtain ⟨h4, h5⟩ := r2 _ _ h1
    obtain ⟨ys, h6, h7⟩ := r1 h4 h5
    have : readAll (readers d.unflat.fields) s = some (xs, s') := h1
    rw [this] at h7
    cases h7
    refine Prod.ext (u2.2 ⟨h4, h5, ?_⟩) u1
    rw [h6]
    exact (hfill _).2 h3

end Deluxe
