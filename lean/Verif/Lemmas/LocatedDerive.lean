import Verif.Lemmas.LocatedTypes
/-!
# Messages point into the input: the derived code
-/
namespace Deluxe
variable {P : Span → Prop} {V : Type}

/-- The result of a pass over the fields: slots and errors. -/
abbrev PassIn (P : Span → Prop) {α : Type} (x : α × Errors) : Prop := x.2.In P

/-- What the fields and the surrounding code contribute. -/
structure Fields.In (P : Span → Prop) (d : Fields V) : Prop where
  fields : ∀ f ∈ d.fields, f.In P
  empty : P d.emptySpan

theorem transform_in {f : Field V} (hf : f.In P) {t : Transform V} (ht : t ∈ f.transforms) (st : FieldStatus V)
    {errs : Errors} (he : errs.In P) : PassIn P (Field.transform t st errs) := by
  cases st with
  | none => exact he
  | parseError => exact he
  | some v =>
    cases t with
    | map g => exact he
    | andThen g =>
      simp only [Field.transform]
      cases h : g v with
      | ok v' => exact he
      | error e => exact he.pushSyn (hf.andThen g ht v e h)

theorem set_in {f : Field V} (hf : f.In P) (st : FieldStatus V) {errs : Errors} (he : errs.In P) :
    PassIn P (f.set st errs) := by
  simp only [Field.set]
  generalize (match f.default with | some d => st.orElse fun _ => .some d | none => st) = st'
  have key : ∀ (ts : List (Transform V)) (x : FieldStatus V × Errors), (∀ t ∈ ts, t ∈ f.transforms) → x.2.In P →
      PassIn P (ts.foldl (fun x t => Field.transform t x.1 x.2) x) := by
    intro ts
    induction ts with
    | nil => exact fun x _ hx => hx
    | cons t ts ih =>
      intro x ht hx
      exact ih _ (fun t' h => ht t' (List.mem_cons_of_mem _ h)) (transform_in hf (ht t List.mem_cons_self) _ hx)
  exact key _ _ (fun _ h => h) he

theorem setPass_in {fs : List (Field V)} (hf : ∀ f ∈ fs, f.In P) (sts : Slots V) {errs : Errors} (he : errs.In P) :
    PassIn P (setPass fs sts errs) := by
  induction fs generalizing sts errs with
  | nil => simpa [setPass] using he
  | cons f fs ih =>
    cases sts with
    | nil => simpa [setPass] using he
    | cons st sts =>
      simp only [setPass]
      exact ih (fun f' h => hf f' (List.mem_cons_of_mem _ h)) sts (set_in (hf f List.mem_cons_self) st he)

theorem finish_in (d : Fields V) (slots : Slots V) {errs : Errors} (he : errs.In P) :
    (finish d slots errs).In P fun _ => True := by
  have hc := he.check
  simp only [finish]
  split
  · split
    · exact unwrapAll_in _
    · trivial
  · rename_i heq; rw [heq] at hc; exact hc
  · trivial

theorem missingPass_in {d : Fields V} (pre : Str) {sp : Span} (hsp : P sp) {fs : List (Field V)}
    (hf : ∀ f ∈ fs, f.In P) (sts : Slots V) {errs : Errors} (he : errs.In P) :
    (missingPass d pre sp fs sts errs).In P (PassIn P) := by
  have one : ∀ f : Field V, f.In P → ∀ (st : FieldStatus V) (errs : Errors), errs.In P →
      (missingNamed d pre sp f st errs).In P (PassIn P) := by
    intro f hf st errs he
    simp only [missingNamed]
    split
    · exact he
    · split
      · have hm := hf.item.missing (missingName d pre f) sp hsp
        split
        · exact he
        · rename_i heq; rw [heq] at hm; exact he.pushSyn hm
        · trivial
      · exact he
  induction fs generalizing sts errs with
  | nil => simp only [missingPass]; exact he
  | cons f fs ih =>
    cases sts with
    | nil => simp only [missingPass]; exact he
    | cons st sts =>
      have h1 := one f (hf f List.mem_cons_self) (containerSet d f st) errs he
      simp only [missingPass]
      split
      · rename_i heq
        rw [heq] at h1
        have h2 := ih (fun f' h => hf f' (List.mem_cons_of_mem _ h)) sts h1
        split
        · rename_i heq2; rw [heq2] at h2; exact h2
        · rename_i heq2; rw [heq2] at h2; exact h2
        · trivial
      · rename_i heq; rw [heq] at h1; exact h1
      · trivial

theorem postNamed_in {d : Fields V} (hd : ∀ f ∈ d.fields, f.In P) (pre : Str) {sp : Span} (hsp : P sp) (sts : Slots V)
    {errs : Errors} (he : errs.In P) : (postNamed d pre sp sts errs).In P fun _ => True := by
  have h := missingPass_in (d := d) pre hsp hd sts he
  simp only [postNamed]
  split
  · rename_i heq; rw [heq] at h; exact finish_in d _ (setPass_in hd _ h)
  · rename_i heq; rw [heq] at h; exact h
  · trivial

theorem flatCall_loc {f : Field V} (hf : f.In P) (pre : Str) {sp : Span} (hsp : P sp) (allowed : List Str) :
    LocL P (f.flatCall pre sp allowed) := by
  simp only [Field.flatCall]
  split
  · exact hf.append _
  · split
    · exact hf.rest _
    · exact hf.flatNamed.parse _ _ _ (Mode.in_named hsp)

theorem flatPass_in (pre : Str) {sp : Span} (hsp : P sp) (allowed : List Str) {fs : List (Field V)}
    (hf : ∀ f ∈ fs, f.In P) (sts : Slots V) {errs : Errors} (he : errs.In P) {l : List Stream} (hl : StreamsIn P l) :
    (flatPass pre sp allowed fs sts errs l).1.In P (PassIn P) ∧ StreamsIn P (flatPass pre sp allowed fs sts errs l).2 := by
  induction fs generalizing sts errs l with
  | nil => exact ⟨by simp only [flatPass]; exact he, by simpa [flatPass] using hl⟩
  | cons f fs ih =>
    cases sts with
    | nil => exact ⟨by simp only [flatPass]; exact he, by simpa [flatPass] using hl⟩
    | cons st sts =>
      have ih := fun (sts : Slots V) (errs : Errors) he (l : List Stream) hl =>
        ih (fun f' h => hf f' (List.mem_cons_of_mem _ h)) sts (errs := errs) he (l := l) hl
      simp only [flatPass]
      split
      · have hcall : ∀ X : Res V × List Stream, (if (fs.any (·.flatParsable)) = true then
            ((f.flatCall pre sp allowed (forkInputs l)).1, l) else f.flatCall pre sp allowed l) = X →
            X.1.In P (fun _ => True) ∧ StreamsIn P X.2 := by
          intro X hX
          subst hX
          split
          · exact ⟨(flatCall_loc (hf f List.mem_cons_self) pre hsp allowed _ hl.fork).1, hl⟩
          · exact flatCall_loc (hf f List.mem_cons_self) pre hsp allowed _ hl
        generalize hX : (if (fs.any (·.flatParsable)) = true then
            ((f.flatCall pre sp allowed (forkInputs l)).1, l) else f.flatCall pre sp allowed l) = X
        obtain ⟨h1, h2⟩ := hcall X hX
        obtain ⟨r, l1⟩ := X
        cases r with
        | ok v =>
          obtain ⟨g1, g2⟩ := ih sts errs he l1 h2
          exact ⟨g1.map _ fun _ h => h, g2⟩
        | err e =>
          obtain ⟨g1, g2⟩ := ih sts (errs.pushSyn e) (he.pushSyn h1) l1 h2
          exact ⟨g1.map _ fun _ h => h, g2⟩
        | panic => exact ⟨trivial, h2⟩
      · obtain ⟨g1, g2⟩ := ih sts errs he l hl
        exact ⟨g1.map _ fun _ h => h, g2⟩

section
variable [Env] [A : Area P]

omit A in
theorem namedStep_keeps {d : Fields V} (hd : ∀ f ∈ d.fields, f.In P) (allowed : List Str) (pre : Str) (validate : Bool)
    (p : Str) {sp : Span} (hsp : P sp) :
    Keeps P (LoopIn P (AccIn P)) (fun _ => True) (namedStep d allowed pre validate p sp) := by
  intro st hs
  obtain ⟨acc, s⟩ := st
  simp only [namedStep]
  split
  · rename_i f i h
    have hf : f.In P := by
      obtain ⟨k, _, hk⟩ := Option.bind_eq_some_iff.1 h
      exact hd f (List.fst_mem_of_mem_zipIdx (List.mem_of_find?_eq_some hk))
    obtain ⟨g1, g2, g3⟩ := parseNamedItemWith_in (hf.item.named (f.idents.headD []) sp hsp) (f.idents.headD []) hsp
      (acc.val.getD i .none) hs.1 hs.2
    exact ⟨g1, g2, g3⟩
  · refine ⟨trivial, ?_, hs.2.skip⟩
    show Errors.In P (if _ then _ else _)
    split
    · exact unknown_in hsp allowed hs.1
    · exact hs.1

theorem namedFlat_loc {d : Fields V} (hd : ∀ f ∈ d.fields, f.In P) (allowed : List Str) (m : Mode) (hm : m.In P)
    (pre : Str) (validate : Bool) : LocL P (namedFlat d allowed m pre validate) := by
  intro l hl
  have hl0 : StreamsIn P (if (d.fields.any (·.flatParsable)) = true then forkInputs l else l) := by
    split
    · exact hl.fork
    · exact hl
  obtain ⟨h1, h2⟩ := parseStruct_keeps (fun p sp hsp => namedStep_keeps hd allowed pre validate p hsp)
    ((⟨d.init, Errors.new⟩ : Acc (Slots V)), if (d.fields.any (·.flatParsable)) = true then forkInputs l else l)
    ⟨Errors.in_new, hl0⟩
  simp only [namedFlat]
  generalize hX : parseStruct (namedStep d allowed pre validate) ((⟨d.init, Errors.new⟩ : Acc (Slots V)),
    if (d.fields.any (·.flatParsable)) = true then forkInputs l else l) = X at h1 h2
  obtain ⟨r, acc, l1⟩ := X
  have hl1 : StreamsIn P (if (d.fields.any (·.flatParsable)) = true then l else l1) := by
    split
    · exact hl
    · exact h2.2
  have hsp : P (m.toFullSpan l) := hm.full hl
  dsimp only
  generalize (if (d.fields.any (·.flatParsable)) = true then l else l1) = l2 at hl1
  have key : ∀ errs : Errors, errs.In P → Res.In P (fun _ : List V => True) (match
      flatPass pre (m.toFullSpan l) allowed d.fields acc.val errs l2 with
      | (.ok (slots, errs), l2) => (postNamed d pre (m.toFullSpan l) slots errs, l2)
      | (.err e, l2) => (.err e, l2)
      | (.panic, l2) => (.panic, l2) : Res (List V) × List Stream).1 ∧ StreamsIn P (match
      flatPass pre (m.toFullSpan l) allowed d.fields acc.val errs l2 with
      | (.ok (slots, errs), l2) => (postNamed d pre (m.toFullSpan l) slots errs, l2)
      | (.err e, l2) => (.err e, l2)
      | (.panic, l2) => (.panic, l2) : Res (List V) × List Stream).2 := by
    intro errs herrs
    obtain ⟨g1, g2⟩ := flatPass_in pre hsp allowed hd acc.val herrs hl1
    split
    · rename_i heq; rw [heq] at g1 g2; exact ⟨postNamed_in hd pre hsp _ g1, g2⟩
    · rename_i heq; rw [heq] at g1 g2; exact ⟨g1, g2⟩
    · rename_i heq; rw [heq] at g2; exact ⟨trivial, g2⟩
  cases r with
  | panic => exact ⟨trivial, hl1⟩
  | ok a => exact key _ h2.1
  | err e => exact key _ (Errors.In.pushSyn h2.1 h1)

/-! ## Tuple structures -/

omit [Env] A in
theorem unnamedCall_loc {f : Field V} (hf : f.In P) (i : Nat) : LocL P (unnamedCall f i) := by
  intro l hl
  simp only [unnamedCall]
  split
  · exact hf.flatUnnamed.parse _ _ Mode.in_unnamed l hl
  · cases l with
    | nil => exact ⟨trivial, hl⟩
    | cons s rest =>
      obtain ⟨h1, h2⟩ := hf.item.parse _ Mode.in_unnamed s hl.head
      exact ⟨h1, hl.tail.cons h2⟩

omit [Env] A in
theorem StreamsIn.skipHead {l : List Stream} (h : StreamsIn P l) : StreamsIn P (skipHead l) := by
  cases l with
  | nil => exact h
  | cons s rest => exact h.tail.cons h.head.skip

omit [Env] A in
theorem unnamedStep_keeps {d : Fields V} (hd : ∀ f ∈ d.fields, f.In P) (i : Nat) :
    Keeps P (LoopsIn P (AccIn P)) (fun _ => True) (unnamedStep d i) := by
  intro st hs
  obtain ⟨acc, l⟩ := st
  simp only [unnamedStep]
  split
  · exact ⟨trivial, hs⟩
  · rename_i f k h
    have hf : f.In P := by
      have hm := List.mem_of_getElem? h
      exact hd f (List.fst_mem_of_mem_zipIdx (List.mem_filter.1 hm).1)
    obtain ⟨h1, h2⟩ := unnamedCall_loc hf acc.val.2 l hs.2
    split
    · rename_i heq; rw [heq] at h2; exact ⟨trivial, hs.1, h2⟩
    · rename_i heq; rw [heq] at h1 h2; exact ⟨trivial, Errors.In.pushSyn hs.1 h1, h2.skipHead⟩
    · rename_i heq; rw [heq] at h2; exact ⟨trivial, hs.1, h2⟩

/-- An outcome that is data. -/
def DataIn {α : Type} (P : Span → Prop) : Except SynErr α → Prop
  | .ok _ => True
  | .error e => e.In P

theorem emptyFlat_in {f : Field V} (hf : f.In P) {sp : Span} (hsp : P sp) (i : Nat) :
    (emptyFlat sp f i).In P (DataIn P) := by
  refine parseEmpty_in hsp fun s hs => ?_
  obtain ⟨h1, h2⟩ := hf.flatUnnamed.parse _ i Mode.in_unnamed [s] (StreamsIn.nil.cons hs)
  have hh : ∀ l : List Stream, StreamsIn P l → (l.headD s).In P := by
    intro l hl
    cases l with
    | nil => exact hs
    | cons t rest => exact hl.head
  cases h : f.flatUnnamed.parse .unnamed i [s] with
  | mk r l =>
    rw [h] at h1 h2
    cases r with
    | ok v => exact ⟨trivial, hh l h2⟩
    | err e => exact ⟨h1, hh l h2⟩
    | panic => exact ⟨trivial, hh l h2⟩

theorem missingUnnamed_in {d : Fields V} (hd : P d.emptySpan) {m : Mode} (hm : m.In P) {l : List Stream}
    (hl : StreamsIn P l) {fs : List (Field V)} (hf : ∀ f ∈ fs, f.In P) (sts : Slots V) {errs : Errors} (he : errs.In P)
    (i c x : Nat) : (missingUnnamed d m l fs sts errs i c x).In P (PassIn P) := by
  induction fs generalizing sts errs i c x with
  | nil => simp only [missingUnnamed]; exact he
  | cons f fs ih =>
    cases sts with
    | nil => simp only [missingUnnamed]; exact he
    | cons st sts =>
      have ih := fun (sts : Slots V) (errs : Errors) he i c x =>
        ih (fun f' h => hf f' (List.mem_cons_of_mem _ h)) sts (errs := errs) he i c x
      have hF := hf f List.mem_cons_self
      simp only [missingUnnamed]
      split
      · exact (ih _ _ he _ _ _).map _ fun _ h => h
      · split
        · split
          · have h := emptyFlat_in hF hd i
            split
            · exact (ih _ _ he _ _ _).map _ fun _ h => h
            · rename_i heq; rw [heq] at h; exact (ih _ _ (he.pushSyn h) _ _ _).map _ fun _ h => h
            · rename_i heq; rw [heq] at h; exact h
            · trivial
          · have h := hF.item.missing (missingIndexName d (i + c + x)) (m.toFullSpan l) (hm.full hl)
            split
            · exact (ih _ _ he _ _ _).map _ fun _ h => h
            · rename_i heq; rw [heq] at h; exact (ih _ _ (he.pushSyn h) _ _ _).map _ fun _ h => h
            · trivial
        · exact (ih _ _ he _ _ _).map _ fun _ h => h

theorem postUnnamed_in {d : Fields V} (hd : d.In P) {m : Mode} (hm : m.In P) {l : List Stream} (hl : StreamsIn P l)
    (sts : Slots V) (i : Nat) {errs : Errors} (he : errs.In P) :
    (postUnnamed d m l sts i errs).In P fun _ => True := by
  have h := missingUnnamed_in hd.empty hm hl hd.fields sts he i 0 0
  simp only [postUnnamed]
  split
  · rename_i heq; rw [heq] at h; exact finish_in d _ (setPass_in hd.fields _ h)
  · rename_i heq; rw [heq] at h; exact h
  · trivial

theorem unnamedFlat_loc {d : Fields V} (hd : d.In P) (m : Mode) (hm : m.In P) (i : Nat) :
    LocL P (unnamedFlat d m i) := by
  intro l hl
  simp only [unnamedFlat]
  split
  · obtain ⟨h1, h2⟩ := eofAll_loc l hl
    split
    · rename_i heq; rw [heq] at h2; exact ⟨postUnnamed_in hd hm h2 _ _ Errors.in_new, h2⟩
    · rename_i heq; rw [heq] at h1 h2; exact ⟨h1, h2⟩
    · rename_i heq; rw [heq] at h2; exact ⟨trivial, h2⟩
  · obtain ⟨h1, h2⟩ := parseTupleStruct_located (d.fields.countP (·.isParsable)) (fun i => unnamedStep_keeps hd.fields i)
      ((⟨(d.init, i), Errors.new⟩ : Acc (Slots V × Nat)), l) ⟨Errors.in_new, hl⟩
    generalize hX : parseTupleStruct (unnamedStep d) (d.fields.countP (·.isParsable))
      ((⟨(d.init, i), Errors.new⟩ : Acc (Slots V × Nat)), l) = X at h1 h2
    obtain ⟨r, acc, l1⟩ := X
    cases r with
    | panic => exact ⟨trivial, h2.2⟩
    | ok a => exact ⟨postUnnamed_in hd hm h2.2 _ _ h2.1, h2.2⟩
    | err e => exact ⟨postUnnamed_in hd hm h2.2 _ _ (Errors.In.pushSyn h2.1 h1), h2.2⟩

/-! ## Structures -/

omit [Env] A in
theorem mapRes_keeps {σ α β : Type} {I : σ → Prop} {g : Res α → Res β}
    (hg : ∀ r : Res α, r.In P (fun _ => True) → (g r).In P fun _ => True) {m : M σ α} (h : Keeps P I (fun _ => True) m) :
    Keeps P I (fun _ => True) (m.mapRes g) := fun s hs => ⟨hg _ (h s hs).1, (h s hs).2⟩

omit [Env] A in
theorem runAndThens_in {α : Type} {fs : List (α → Except SynErr α)} (hf : ∀ g ∈ fs, ∀ v e, g v = .error e → e.In P)
    (r : Res α) (hr : r.In P fun _ => True) : (runAndThens fs r).In P fun _ => True := by
  cases r with
  | err e => exact hr
  | panic => trivial
  | ok v =>
    simp only [runAndThens]
    split
    · trivial
    · rename_i e h
      clear hr
      induction fs generalizing v with
      | nil => cases h
      | cons f fs ih =>
        rw [List.foldlM_cons] at h
        cases hv : f v with
        | error e' =>
          rw [hv] at h
          cases h
          exact hf f List.mem_cons_self v _ hv
        | ok v' =>
          rw [hv] at h
          exact ih (fun g hg => hf g (List.mem_cons_of_mem _ hg)) v' h

theorem StructDef.In.data {d : StructDef V} (h : d.In P) : d.data.In P := ⟨h.fields, A.callSite⟩

theorem StructDef.In.flatNamed {d : StructDef V} (h : d.In P) : d.flatNamed.In P :=
  ⟨fun m _ _ hm => mapRes_keeps (runAndThens_in h.andThen) (namedFlat_loc h.fields _ m hm _ _)⟩

theorem StructDef.In.flatUnnamed {d : StructDef V} (h : d.In P) : d.flatUnnamed.In P := by
  refine ⟨fun m i hm => ?_⟩
  simp only [StructDef.flatUnnamed]
  split
  · exact h.flatNamed.parse m [] true hm
  · exact mapRes_keeps (runAndThens_in h.andThen) (unnamedFlat_loc h.data m hm i)

omit [Env] A in
theorem StructDef.missing_in (d : StructDef V) (n : Str) {sp : Span} (hs : P sp) :
    (d.missing n sp).In P fun _ => True := by
  simp only [StructDef.missing]
  split
  · trivial
  · exact SynErr.in_new _ hs

omit [Env] A in
theorem transparentPost_in {d : StructDef V} (h : d.In P) (k : Nat) (r : Res V) (hr : r.In P fun _ => True) :
    (transparentPost d k r).In P fun _ => True := by
  cases r with
  | err e => exact hr
  | panic => trivial
  | ok v => exact runAndThens_in h.andThen _ (finish_in _ _ (setPass_in h.fields _ Errors.in_new))

theorem StructDef.In.dict {d : StructDef V} (h : d.In P) : d.dict.In P := by
  have hm := fun n sp (hs : P sp) => StructDef.missing_in d n hs
  simp only [StructDef.dict]
  split
  · split
    · rename_i f k hk
      have hf := h.fields f (List.fst_mem_of_mem_zipIdx (List.mem_of_find?_eq_some hk))
      exact Dict.mk'_in_all (fun m hm => mapRes_keeps (transparentPost_in h k) (hf.item.parse m hm))
        (fun m hm => mapRes_keeps (transparentPost_in h k) (hf.item.inline m hm))
        (fun sp hs => transparentPost_in h k _ (hf.item.flag sp hs)) hm
    · exact Dict.mk'_in_parse fun _ _ => Keeps.panic
  · split
    · have hi : ∀ m : Mode, m.In P → LocL P (d.flatNamed.parse m [] (!d.acceptsAll)) :=
        fun m hm => h.flatNamed.parse m _ _ hm
      exact Dict.mk'_in_all (fun m hm => parseDelimitedWith_loc .brace (single_loc (hi m hm))) hi
        (fun sp hs => parseEmpty_in hs (single_loc (hi _ (Mode.in_named hs)))) hm
    · have hi : ∀ m : Mode, m.In P → LocL P (d.flatUnnamed.parse m 0) := fun m hm => h.flatUnnamed.parse m _ hm
      refine Dict.mk'_in_all (fun m hm => parseDelimitedWith_loc .paren (single_loc (hi m hm))) hi
        (fun sp hs => ?_) hm
      split
      · exact parseEmpty_in hs (single_loc (hi _ Mode.in_unnamed))
      · exact SynErr.in_new _ hs
    · have hi : LocL P (fun l : List Stream => (runAndThens d.andThens (.ok []), l)) :=
        fun l hl => ⟨runAndThens_in h.andThen (.ok []) trivial, hl⟩
      exact Dict.mk'_in_all (fun _ _ => parseDelimitedWith_loc .paren (single_loc hi)) (fun _ _ => hi)
        (fun _ _ => runAndThens_in h.andThen (.ok []) trivial) hm

end

end Deluxe
