import Verif.Spec.Unread
import Verif.Props.Enums
import Verif.Props.AttrTokens
import Verif.Lemmas.Defs
/-!
# Fields that are not read keep their slot
-/
namespace Deluxe

variable {V : Type}

/-! ## Values of parsers -/

section
variable {α : Type} {Q : α → Prop}

theorem OkAll.delimited {f : M Stream α} (h : OkAll Q f) (dl : Delim) : OkAll Q (parseDelimitedWith dl f) := by
  intro s v hv
  unfold parseDelimitedWith withContent at hv
  cases he : enter dl s with
  | error e => rw [he] at hv; cases hv
  | ok x =>
    obtain ⟨c, s'⟩ := x
    rw [he] at hv
    simp only at hv
    change (M.bind f (fun r => M.bind parseEof fun _ => pure r) c).1 = _ at hv
    rw [M.bind_apply] at hv
    cases hf : f c with
    | mk r c1 =>
      rw [hf] at hv
      cases r with
      | ok a =>
        simp only at hv
        rw [M.bind_apply] at hv
        cases hp : parseEof c1 with
        | mk r2 c2 =>
          rw [hp] at hv
          cases r2 with
          | ok _ =>
            cases hv
            exact h c _ (by rw [hf])
          | err e => cases hv
          | panic => cases hv
      | err e => cases hv
      | panic => cases hv

theorem OkAll.single {f : M (List Stream) α} (h : OkAll Q f) : OkAll Q (single f) :=
  fun s _ hv => h [s] _ hv

theorem OkAll.empty {f : M Stream α} (h : OkAll Q f) {sp : Span} {v : α} (hv : parseEmpty sp f = .ok v) : Q v := by
  unfold parseEmpty at hv
  have h2 : parse2 f [] = .ok v := by
    cases hp : parse2 f [] with
    | ok a => rw [hp] at hv; exact hv
    | err e => rw [hp] at hv; cases hv
    | panic => rw [hp] at hv; cases hv
  unfold parse2 at h2
  cases hf : f ⟨[], callSite, none⟩ with
  | mk r s =>
    rw [hf] at h2
    cases r with
    | ok a =>
      simp only at h2
      split at h2
      · cases h2
      · split at h2
        · cases h2
        · cases h2; exact h _ _ (by rw [hf])
    | err e => cases h2
    | panic => cases h2

theorem OkAll.mapRes {β σ : Type} {m : M σ β} {g : Res β → Res α} (h : ∀ r v, g r = .ok v → Q v) :
    OkAll Q (m.mapRes g) := fun _ _ hv => h _ _ hv

theorem OkAll.mapOk {β σ : Type} {P : β → Prop} {m : M σ β} {g : Res β → Res α} (hm : OkAll P m)
    (h : ∀ r v, (∀ b, r = .ok b → P b) → g r = .ok v → Q v) : OkAll Q (m.mapRes g) :=
  fun s _ hv => h _ _ (fun b hb => hm s b hb) hv

theorem OkAll.namedWith {parse : Mode → M Stream α} {inline : Mode → M (List Stream) α} {flag : Span → Res α}
    (hp : ∀ m, OkAll Q (parse m)) (hi : ∀ m, OkAll Q (inline m)) (hf : ∀ sp v, flag sp = .ok v → Q v) (sp : Span) :
    OkAll Q (parseNamedWith parse inline flag sp) := by
  intro s v hv
  unfold parseNamedWith at hv
  split at hv
  · exact hp _ _ _ hv
  · split at hv
    · exact (hi _).single.delimited _ _ _ hv
    · exact hf _ _ hv

theorem OkAll.first {f : Mode → M Stream α} {m : Mode} (h : OkAll Q (f m)) : OkAll Q (parseFirst f m) := by
  intro l v hv
  unfold parseFirst at hv
  cases l with
  | nil => exact h.empty hv
  | cons s rest =>
    change (M.bind (f m) (fun r => M.bind parseEof fun _ => pure r) s).1 = _ at hv
    rw [M.bind_apply] at hv
    cases hf : f m s with
    | mk r s1 =>
      rw [hf] at hv
      cases r with
      | ok a =>
        simp only at hv
        rw [M.bind_apply] at hv
        cases hp : parseEof s1 with
        | mk r2 c2 =>
          rw [hp] at hv
          cases r2 with
          | ok _ =>
            cases hv
            exact h s _ (by rw [hf])
          | err e => cases hv
          | panic => cases hv
      | err e => cases hv
      | panic => cases hv

theorem OkAll.tokens {f : M Stream α} (h : OkAll Q f) {toks : List Tok} {v : α} (hv : parseTokens toks f = .ok v) :
    Q v := by
  obtain ⟨s', hs, -⟩ := (parseTokens_ok _ _ _).1 hv
  exact h _ _ (by rw [hs])

theorem OkAll.attrTokens {func : List (Str × Span) → M (List Stream) α} (h : ∀ ps, OkAll Q (func ps))
    {attrs : List (List Tok × Str × Span)} {v : α} (hv : parseStructAttrTokens attrs func = .ok v) : Q v := by
  have next : ∀ (attrs : List (List Tok × Str × Span)) (ps : List (Str × Span)), OkAll Q (parseNext func attrs ps) := by
    intro attrs
    induction attrs with
    | nil =>
      intro ps bufs v hv
      change (M.bind (func ps) (fun r => M.bind eofAll fun _ => pure r) bufs).1 = _ at hv
      rw [M.bind_apply] at hv
      cases hf : func ps bufs with
      | mk r l =>
        rw [hf] at hv
        cases r with
        | ok a =>
          simp only at hv
          rw [M.bind_apply] at hv
          cases hp : eofAll l with
          | mk r2 l2 =>
            rw [hp] at hv
            cases r2 with
            | ok _ =>
              cases hv
              exact h ps bufs _ (by rw [hf])
            | err e => cases hv
            | panic => cases hv
        | err e => cases hv
        | panic => cases hv
    | cons x attrs ih =>
      obtain ⟨toks, name, span⟩ := x
      intro ps bufs v hv
      simp only [parseNext] at hv
      refine OkAll.tokens (fun s w hw => ?_) hv
      simp only at hw
      split at hw
      · exact ih _ _ _ hw
      · cases he : enter .paren s with
        | error e => rw [he] at hw; cases hw
        | ok z =>
          rw [he] at hw
          exact ih _ _ _ hw
  exact next attrs [] [] v hv

theorem Dict.OkAll.mk' {parse : Mode → M Stream α} {inline : Mode → M (List Stream) α} {flag : Span → Res α}
    {missing : Str → Span → Res α}
    (hp : ∀ m, Deluxe.OkAll Q (parse m)) (hi : ∀ m, Deluxe.OkAll Q (inline m)) (hf : ∀ sp v, flag sp = .ok v → Q v) :
    (Dict.mk' parse inline flag missing).OkAll Q where
  parse := hp
  inline := hi
  flag := hf
  named := by
    intro n sp s v hv
    change (parseNamedMetaItem parse inline flag sp s).1 = _ at hv
    unfold parseNamedMetaItem at hv
    split at hv
    · change (M.bind (parsePunct '=') (fun _ => parse (.named sp)) s).1 = _ at hv
      rw [M.bind_apply] at hv
      split at hv
      · exact hp _ _ _ hv
      · cases hv
      · cases hv
    · split at hv
      · exact (hi _).single.delimited _ _ _ hv
      · exact hf _ _ hv
end

theorem runAndThens_runThens {α : Type} (fs : List (α → Except SynErr α)) (r : Res α) (v : α) :
    runAndThens fs r = .ok v ↔ ∃ b, r = .ok b ∧ runThens fs b = .ok v := by
  have key : ∀ b : α, (fs.foldlM (fun v f => f v) b) = runThens fs b := by
    intro b
    induction fs generalizing b with
    | nil => rfl
    | cons f fs ih =>
      rw [List.foldlM_cons, runThens]
      cases h : f b with
      | ok c => exact ih c
      | error e => rfl
  cases r with
  | ok b =>
    simp only [runAndThens, key]
    cases h : runThens fs b with
    | ok c => simp [h]
    | error e => simp [h]
  | err e => simp [runAndThens]
  | panic => simp [runAndThens]

/-! ## The slot -/

section
variable {d : Fields V} {i : Nat} {f : Field V}

/-- The value of a slot without a value, after defaults and transforms. -/
theorem setOut_unread (d : Fields V) (f : Field V) (hm : (setOut f (containerSet d f .none)).2 = []) :
    (∃ b v, (f.isContainer = true ∧ d.obj = some b ∨
        ¬ (f.isContainer = true ∧ d.obj.isSome = true) ∧ f.default = some b) ∧
      runTransforms f.transforms b = .ok v ∧ (setOut f (containerSet d f .none)).1 = .some v) ∨
    (¬ (f.isContainer = true ∧ d.obj.isSome = true) ∧ f.default = none ∧
      (setOut f (containerSet d f .none)).1 = .none) := by
  have run : ∀ b, withDefault f (containerSet d f .none) = .some b →
      ∃ v, runTransforms f.transforms b = .ok v ∧ (setOut f (containerSet d f .none)).1 = .some v := by
    intro b hb
    unfold setOut at hm ⊢
    rw [hb] at hm ⊢
    simp only [transOut] at hm ⊢
    cases hr : runTransforms f.transforms b with
    | ok v => exact ⟨v, rfl, rfl⟩
    | error e => rw [hr] at hm; simp [SynErr.toList] at hm
  by_cases hc : f.isContainer = true ∧ d.obj.isSome = true
  · obtain ⟨b, hb⟩ := Option.isSome_iff_exists.1 hc.2
    have hs : containerSet d f .none = .some b := by simp [containerSet, hb, hc.1]
    obtain ⟨v, h1, h2⟩ := run b (by rw [hs]; unfold withDefault; cases f.default <;> rfl)
    exact .inl ⟨b, v, .inl ⟨hc.1, hb⟩, h1, h2⟩
  · have hs : containerSet d f .none = .none := by
      unfold containerSet
      cases ho : d.obj with
      | none => rfl
      | some b =>
        by_cases h : f.isContainer = true
        · exact absurd ⟨h, by simp [ho]⟩ hc
        · simp [h]
    cases hd : f.default with
    | some b =>
      obtain ⟨v, h1, h2⟩ := run b (by rw [hs]; simp [withDefault, hd, FieldStatus.orElse])
      exact .inl ⟨b, v, .inr ⟨hc, rfl⟩, h1, h2⟩
    | none => exact .inr ⟨hc, rfl, by rw [hs]; simp [setOut, withDefault, hd, transOut]⟩

/-- The end of the parser. -/
theorem finish_unread (hf : d.fields[i]? = some f) {slots : Slots V}
    (ht : ∀ t, d.target = some t → t.length = d.fields.length)
    (hs : slots[i]? = some (containerSet d f .none)) {errs : Errors} {vs : List V} {d' : Fields V}
    (hd : d'.target = d.target)
    (h : finish d' (setPass d.fields slots errs).1 (setPass d.fields slots errs).2 = .ok vs) :
    Unread d i f vs := by
  obtain ⟨e1, h1, h2⟩ := setPass_eq d.fields slots errs
  rw [h1] at h
  obtain ⟨h3, h4⟩ := finish_eq d' (List.zipWith (fun f st => (setOut f st).1) d.fields slots) e1
  by_cases hn : e1.toList = []
  · rw [h4 hn, hd] at h
    have hm : (setOut f (containerSet d f .none)).2 = [] := by
      rw [hn] at h2
      have h5 := (List.append_eq_nil_iff.1 h2.symm).2
      rw [List.flatten_eq_nil_iff] at h5
      refine h5 _ (List.mem_of_getElem? (i := i) ?_)
      rw [List.getElem?_zipWith, hf, hs]
    have hz : (List.zipWith (fun f st => (setOut f st).1) d.fields slots)[i]? =
        some (setOut f (containerSet d f .none)).1 := by
      rw [List.getElem?_zipWith, hf, hs]
    have hi := (List.getElem?_eq_some_iff.1 hf).1
    rcases setOut_unread d f hm with ⟨b, v, hb, hr, hv⟩ | ⟨hc, hd, hv⟩
    · refine .inl ⟨b, v, hb, hr, ?_⟩
      rw [hv] at hz
      cases htg : d.target with
      | none =>
        rw [htg] at h
        rw [unwrapAll_iff.1 h, List.getElem?_map] at hz
        cases hx : vs[i]? <;> simp [hx] at hz
        rw [hz]
      | some t =>
        rw [htg] at h
        simp only [Res.ok.injEq] at h
        have hl := ht t htg
        rw [← h, List.getElem?_zipWith, hz, List.getElem?_eq_getElem (l := t) (i := i) (by omega)]
        rfl
    · rw [hv] at hz
      refine .inr ⟨hc, hd, ?_⟩
      cases htg : d.target with
      | none =>
        rw [htg] at h
        rw [unwrapAll_iff.1 h, List.getElem?_map] at hz
        cases hx : vs[i]? <;> simp [hx] at hz
      | some t =>
        rw [htg] at h
        simp only [Res.ok.injEq] at h
        have hl := ht t htg
        refine ⟨t, rfl, ?_⟩
        rw [← h, List.getElem?_zipWith, hz, List.getElem?_eq_getElem (l := t) (i := i) (by omega)]
        rfl
  · obtain ⟨x, hx, _⟩ := h3 hn
    rw [hx] at h
    cases h

/-- The items do not change it. -/
theorem namedStep_unread [Env] (hf : d.fields[i]? = some f) (hp : f.isParsable = false) (allowed : List Str)
    (pre : Str) (validate : Bool) (p : Str) (span : Span) (st : Acc (Slots V) × Stream) :
    (namedStep d allowed pre validate p span st).2.1.val[i]? = st.1.val[i]? := by
  obtain ⟨acc, s⟩ := st
  unfold namedStep
  cases h : (stripPrefix pre p).bind (findArm d.fields) with
  | none => rfl
  | some x =>
    obtain ⟨g, j⟩ := x
    simp only
    obtain ⟨k, _, hk⟩ := Option.bind_eq_some_iff.1 h
    obtain ⟨h1, h2, _⟩ := (findArm_some _ _ _ _).1 hk
    rw [List.getElem?_set_ne]
    rintro rfl
    rw [h1] at hf
    cases hf
    have := h2.2
    rw [hp] at this
    cases this

theorem flatPass_unread (pre : Str) (span : Span) (allowed : List Str) (fs : List (Field V)) {i : Nat} {f : Field V}
    (hf : fs[i]? = some f) (hp : f.isParsable = false) (sts : Slots V) (errs : Errors) (l : List Stream)
    {slots errs' l'} (h : flatPass pre span allowed fs sts errs l = (.ok (slots, errs'), l')) :
    slots[i]? = sts[i]? := by
  have hnp : f.flatParsable = false := by simp [Field.flatParsable, hp]
  induction fs generalizing i sts errs l slots errs' l' with
  | nil => cases hf
  | cons g fs ih =>
    cases sts with
    | nil => simp only [flatPass] at h; cases h; rfl
    | cons st sts =>
      have tail : ∀ {x : FieldStatus V} {e1 l1}, ((flatPass pre span allowed fs sts e1 l1).1.map fun y => (x :: y.1, y.2)) = .ok (slots, errs') →
          (i = 0 → x = st) → slots[i]? = (st :: sts)[i]? := by
        intro x e1 l1 hx h0
        cases hr : flatPass pre span allowed fs sts e1 l1 with
        | mk r l2 =>
          rw [hr] at hx
          cases r with
          | ok y =>
            simp only [Res.map, Res.ok.injEq, Prod.mk.injEq] at hx
            obtain ⟨rfl, rfl⟩ := hx
            cases i with
            | zero => simp [h0 rfl]
            | succ n =>
              simp only [List.getElem?_cons_succ] at hf ⊢
              exact ih hf _ _ _ hr
          | err e => cases hx
          | panic => cases hx
      unfold flatPass at h
      by_cases hg : g.flatParsable = true
      · have hi : i ≠ 0 := by
          rintro rfl
          simp at hf
          subst hf
          rw [hnp] at hg
          cases hg
        simp only [hg, ↓reduceIte] at h
        split at h
        · exact tail (congrArg Prod.fst h) (fun h0 => absurd h0 hi)
        · exact tail (congrArg Prod.fst h) (fun h0 => absurd h0 hi)
        · cases h
      · simp only [hg, Bool.false_eq_true, ↓reduceIte] at h
        exact tail (congrArg Prod.fst h) (fun _ => rfl)

theorem containerSet_isNone (d : Fields V) (f : Field V)
    (hd : f.default.isSome = true ∨ d.target.isSome = true ∨ (f.isContainer = true ∧ d.obj.isSome = true)) :
    (f.isContainer || d.transparent) = true ∨ (f.default.isNone && d.target.isNone) = false := by
  rcases hd with h | h | h
  · right; cases hx : f.default <;> simp [hx] at h ⊢
  · right; cases hx : d.target <;> simp [hx] at h ⊢
  · left; simp [h.1]

theorem missingPass_unread (d : Fields V) (pre : Str) (span : Span) (fs : List (Field V)) {i : Nat} {f : Field V}
    (hf : fs[i]? = some f)
    (hd : f.default.isSome = true ∨ d.target.isSome = true ∨ (f.isContainer = true ∧ d.obj.isSome = true))
    (sts : Slots V) (hs : sts[i]? = some .none) (errs : Errors)
    {slots errs'} (h : missingPass d pre span fs sts errs = .ok (slots, errs')) :
    slots[i]? = some (containerSet d f .none) := by
  induction fs generalizing i sts errs slots errs' with
  | nil => cases hf
  | cons g fs ih =>
    cases sts with
    | nil => cases hs
    | cons st sts =>
      simp only [missingPass] at h
      cases hm : missingNamed d pre span g (containerSet d g st) errs with
      | err e => rw [hm] at h; cases h
      | panic => rw [hm] at h; cases h
      | ok x =>
        obtain ⟨st', e1⟩ := x
        rw [hm] at h
        simp only at h
        cases hr : missingPass d pre span fs sts e1 with
        | err e => rw [hr] at h; cases h
        | panic => rw [hr] at h; cases h
        | ok y =>
          rw [hr] at h
          cases h
          cases i with
          | zero =>
            simp only [List.getElem?_cons_zero, Option.some.injEq] at hf hs ⊢
            subst hf hs
            unfold missingNamed at hm
            rcases containerSet_isNone d g hd with hc | hc
            · simp only [hc, ↓reduceIte, Res.ok.injEq, Prod.mk.injEq] at hm
              exact hm.1.symm
            · split at hm
              · cases hm; rfl
              · simp only [hc, Bool.false_and, Bool.false_eq_true, ↓reduceIte, Res.ok.injEq, Prod.mk.injEq] at hm
                exact hm.1.symm
          | succ n =>
            simp only [List.getElem?_cons_succ] at hf hs ⊢
            exact ih hf sts hs e1 hr

theorem missingUnnamed_unread [Env] (d : Fields V) (mode : Mode) (l : List Stream) (fs : List (Field V)) {i : Nat} {f : Field V}
    (hf : fs[i]? = some f)
    (hd : f.default.isSome = true ∨ d.target.isSome = true ∨ (f.isContainer = true ∧ d.obj.isSome = true))
    (sts : Slots V) (hs : sts[i]? = some .none) (errs : Errors) (index cur extra : Nat)
    {slots errs'} (h : missingUnnamed d mode l fs sts errs index cur extra = .ok (slots, errs')) :
    slots[i]? = some (containerSet d f .none) := by
  induction fs generalizing i sts errs slots errs' index cur extra with
  | nil => cases hf
  | cons g fs ih =>
    cases sts with
    | nil => cases hs
    | cons st sts =>
      have tail : ∀ {x : FieldStatus V} {e1 a b c}, ((missingUnnamed d mode l fs sts e1 a b c).map fun y => (x :: y.1, y.2)) = .ok (slots, errs') →
          (i = 0 → x = containerSet d f .none) → slots[i]? = some (containerSet d f .none) := by
        intro x e1 a b c hx h0
        cases hr : missingUnnamed d mode l fs sts e1 a b c with
        | ok y =>
          rw [hr] at hx
          simp only [Res.map, Res.ok.injEq, Prod.mk.injEq] at hx
          obtain ⟨rfl, rfl⟩ := hx
          cases i with
          | zero => simp [h0 rfl]
          | succ n =>
            simp only [List.getElem?_cons_succ] at hf hs ⊢
            exact ih hf sts hs e1 _ _ _ hr
        | err e => rw [hr] at hx; cases hx
        | panic => rw [hr] at hx; cases hx
      have zero : i = 0 → containerSet d g st = containerSet d f .none := by
        rintro rfl
        simp only [List.getElem?_cons_zero, Option.some.injEq] at hf hs
        rw [hf, hs]
      simp only [missingUnnamed] at h
      split at h
      · exact tail h zero
      · rename_i hc
        split at h
        · rename_i hn
          have hi : i ≠ 0 := by
            rintro rfl
            simp only [List.getElem?_cons_zero, Option.some.injEq] at hf
            subst hf
            rcases containerSet_isNone d g hd with h1 | h1
            · exact hc h1
            · rw [h1] at hn; simp at hn
          split at h
          · split at h
            · exact tail h (fun h0 => absurd h0 hi)
            · exact tail h (fun h0 => absurd h0 hi)
            · cases h
            · cases h
          · split at h
            · exact tail h (fun h0 => absurd h0 hi)
            · exact tail h (fun h0 => absurd h0 hi)
            · cases h
        · exact tail h zero

end

section
variable {κ : Type}

theorem tupleLoop_keeps {P : κ → Prop} {func : Nat → M (κ × List Stream) Unit}
    (hf : ∀ c k l, P k → P (func c (k, l)).2.1) (rem c : Nat) (k : κ) (l : List Stream) (h : P k) :
    P (tupleLoop func rem c (k, l)).2.1 := by
  induction rem generalizing c k l with
  | zero =>
    cases l with
    | nil => rw [tupleLoop_nil]; exact h
    | cons s rest => rw [tupleLoop_cons]; split <;> exact h
  | succ rem ih =>
    cases l with
    | nil => rw [tupleLoop_nil]; exact h
    | cons s rest =>
      rw [tupleLoop_cons]
      split
      · exact h
      · have h1 := hf c k (s :: rest) h
        simp only
        cases hc : func c (k, s :: rest) with
        | mk r st1 =>
          obtain ⟨k1, l1⟩ := st1
          rw [hc] at h1
          cases r with
          | ok _ =>
            simp only
            split
            · exact ih _ _ _ h1
            · have hk : (onHead parseComma (k1, l1)).2.1 = k1 := by
                cases l1 <;> rfl
              cases ho : onHead parseComma (k1, l1) with
              | mk r2 st2 =>
                obtain ⟨k2, l2⟩ := st2
                rw [ho] at hk
                simp only at hk
                subst hk
                cases r2 with
                | ok _ => exact ih _ _ _ h1
                | err e => exact h1
                | panic => exact h1
          | err e => exact h1
          | panic => exact h1

theorem parseTupleStruct_keeps {P : κ → Prop} {func : Nat → M (κ × List Stream) Unit}
    (hf : ∀ c k l, P k → P (func c (k, l)).2.1) (len : Nat) (k : κ) (l : List Stream) (h : P k) :
    P (parseTupleStruct func len (k, l)).2.1 := by
  show P (parseTupleStruct.go func len l.length 0 (k, l)).2.1
  suffices hh : ∀ n c k l, P k → P (parseTupleStruct.go func len n c (k, l)).2.1 from hh _ _ _ _ h
  intro n
  induction n with
  | zero => intro c k l h; exact h
  | succ n ih =>
    intro c k l h
    have h1 := tupleLoop_keeps hf (len - c) c k l h
    rw [parseTupleStruct.go]
    simp only
    cases ht : tupleLoop func (len - c) c (k, l) with
    | mk r st =>
      obtain ⟨k1, l1⟩ := st
      rw [ht] at h1
      cases r with
      | ok x =>
        obtain ⟨c1, b⟩ := x
        cases b with
        | true => exact h1
        | false =>
          cases l1 with
          | nil => exact h1
          | cons s rest => exact ih c1 k1 rest h1
      | err e => exact h1
      | panic => exact h1
end

section
variable [Env] {d : Fields V} {i : Nat} {f : Field V}

omit [Env] in
theorem unnamedStep_unread (hf : d.fields[i]? = some f) (hp : f.isParsable = false) (c : Nat)
    (acc : Acc (Slots V × Nat)) (l : List Stream) :
    (unnamedStep d c (acc, l)).2.1.val.1[i]? = acc.val.1[i]? := by
  unfold unnamedStep
  simp only
  cases h : nthArm d.fields c with
  | none => rfl
  | some x =>
    obtain ⟨g, k⟩ := x
    have hne : k ≠ i := by
      rintro rfl
      have := List.mem_of_getElem? h
      rw [List.mem_filter, List.mem_zipIdx_iff_getElem?] at this
      rw [this.1] at hf
      cases hf
      simp [hp] at this
    simp only
    cases hc : unnamedCall g acc.val.2 l with
    | mk r l' =>
      cases r with
      | ok v => exact List.getElem?_set_ne hne
      | err e => exact List.getElem?_set_ne hne
      | panic => rfl

/-- A field that is not read, in a structure or variant with named fields. -/
theorem namedFlat_unread (hf : d.fields[i]? = some f) (hp : f.isParsable = false)
    (hd : f.default.isSome = true ∨ d.target.isSome = true ∨ (f.isContainer = true ∧ d.obj.isSome = true))
    (ht : ∀ t, d.target = some t → t.length = d.fields.length) (allowed : List Str) (mode : Mode) (pre : Str)
    (validate : Bool) : OkAll (Unread d i f) (namedFlat d allowed mode pre validate) := by
  intro l vs h
  have hinit : d.init[i]? = some .none := by simp [Fields.init, hf]
  unfold namedFlat at h
  simp only at h
  have hinv := parseStruct_inv (P := fun acc : Acc (Slots V) => acc.val[i]? = some .none)
    (func := namedStep d allowed pre validate)
    (fun p sp st hst => by rw [namedStep_unread hf hp]; exact hst) ⟨d.init, Errors.new⟩
    (if d.fields.any (·.flatParsable) then forkInputs l else l) hinit
  generalize parseStruct (namedStep d allowed pre validate) _ = x at h hinv
  obtain ⟨r, acc, l1⟩ := x
  simp only at hinv
  have key : ∀ errs l1, ((match flatPass pre (mode.toFullSpan l) allowed d.fields acc.val errs l1 with
        | (.ok (slots, errs), l2) => (postNamed d pre (mode.toFullSpan l) slots errs, l2)
        | (.err e, l2) => (.err e, l2)
        | (.panic, l2) => (.panic, l2) : Res (List V) × List Stream)).1 = .ok vs → Unread d i f vs := by
    intro errs l1 h
    cases hfp : flatPass pre (mode.toFullSpan l) allowed d.fields acc.val errs l1 with
    | mk r l2 =>
      rw [hfp] at h
      cases r with
      | ok x =>
        obtain ⟨slots, e1⟩ := x
        have h1 := flatPass_unread _ _ _ _ hf hp _ _ _ hfp
        rw [hinv] at h1
        simp only [postNamed] at h
        cases hm : missingPass d pre (mode.toFullSpan l) d.fields slots e1 with
        | ok y =>
          obtain ⟨slots2, e2⟩ := y
          rw [hm] at h
          exact finish_unread hf ht (missingPass_unread d _ _ _ hf hd _ h1 _ hm) rfl h
        | err e => rw [hm] at h; cases h
        | panic => rw [hm] at h; cases h
      | err e => cases h
      | panic => cases h
  cases r with
  | ok _ => exact key _ _ h
  | err e => exact key _ _ h
  | panic => cases h

/-- A field that is not read, in a structure or variant with fields by position. -/
theorem unnamedFlat_unread (hf : d.fields[i]? = some f) (hp : f.isParsable = false)
    (hd : f.default.isSome = true ∨ d.target.isSome = true ∨ (f.isContainer = true ∧ d.obj.isSome = true))
    (ht : ∀ t, d.target = some t → t.length = d.fields.length) (mode : Mode) (index : Nat) :
    OkAll (Unread d i f) (unnamedFlat d mode index) := by
  intro l vs h
  have hinit : d.init[i]? = some .none := by simp [Fields.init, hf]
  have key : ∀ slots index errs l1, slots[i]? = some .none → postUnnamed d mode l1 slots index errs = .ok vs →
      Unread d i f vs := by
    intro slots index errs l1 hs h
    simp only [postUnnamed] at h
    cases hm : missingUnnamed d mode l1 d.fields slots errs index 0 0 with
    | ok y =>
      obtain ⟨slots2, e2⟩ := y
      rw [hm] at h
      exact finish_unread hf ht (missingUnnamed_unread d _ _ _ hf hd _ hs _ _ _ _ hm) rfl h
    | err e => rw [hm] at h; cases h
    | panic => rw [hm] at h; cases h
  unfold unnamedFlat at h
  simp only at h
  split at h
  · split at h
    · exact key _ _ _ _ hinit h
    · cases h
    · cases h
  · have hinv := parseTupleStruct_keeps (P := fun acc : Acc (Slots V × Nat) => acc.val.1[i]? = some .none)
      (func := unnamedStep d)
      (fun c k l hk => by rw [unnamedStep_unread hf hp]; exact hk) (d.fields.countP (·.isParsable))
      ⟨(d.init, index), Errors.new⟩ l hinit
    generalize parseTupleStruct (unnamedStep d) _ _ = x at h hinv
    obtain ⟨r, acc, l1⟩ := x
    cases r with
    | ok _ => exact key _ _ _ _ hinv h
    | err e => exact key _ _ _ _ hinv h
    | panic => cases h
end

/-! ## Transparent structures and variants -/

theorem find_parsable {fields : List (Field V)} {g : Field V} {k : Nat}
    (h : fields.zipIdx.find? (fun x => x.1.isParsable && !x.1.isFlat) = some (g, k)) :
    fields[k]? = some g ∧ g.isParsable = true := by
  have h1 := List.mem_zipIdx_iff_getElem?.1 (List.mem_of_find?_eq_some h)
  have h2 := List.find?_some h
  simp only [Bool.and_eq_true] at h2
  exact ⟨h1, h2.1⟩

section
variable [Env] {i : Nat} {f : Field V}

omit [Env] in
/-- The slots of a transparent structure or variant. -/
theorem transparent_slot (d : Fields V) (hf : d.fields[i]? = some f) (hp : f.isParsable = false) {g : Field V} {k : Nat}
    (hg : d.fields.zipIdx.find? (fun x => x.1.isParsable && !x.1.isFlat) = some (g, k)) (v : V) :
    (List.zipWith (containerSet d) d.fields (d.init.set k (.some v)))[i]? = some (containerSet d f .none) := by
  obtain ⟨h1, h2⟩ := find_parsable hg
  have hne : k ≠ i := by
    rintro rfl
    rw [h1] at hf
    cases hf
    rw [hp] at h2
    cases h2
  rw [List.getElem?_zipWith, hf, List.getElem?_set_ne hne]
  simp [Fields.init, hf]

omit [Env] in
theorem init_slot (d : Fields V) (hf : d.fields[i]? = some f) (hp : f.isParsable = false) {g : Field V} {k : Nat}
    (hg : d.fields.zipIdx.find? (fun x => x.1.isParsable && !x.1.isFlat) = some (g, k)) (v : V) :
    (d.init.set k (.some v))[i]? = some .none := by
  obtain ⟨h1, h2⟩ := find_parsable hg
  have hne : k ≠ i := by
    rintro rfl
    rw [h1] at hf
    cases hf
    rw [hp] at h2
    cases h2
  rw [List.getElem?_set_ne hne]
  simp [Fields.init, hf]

omit [Env] in
theorem transparentPost_unread (d : StructDef V) (hf : d.fields[i]? = some f) (hp : f.isParsable = false)
    (ht : ∀ t, d.default = some t → t.length = d.fields.length) {g : Field V} {k : Nat}
    (hg : d.fields.zipIdx.find? (fun x => x.1.isParsable && !x.1.isFlat) = some (g, k)) (r : Res V) (vs : List V)
    (h : transparentPost d k r = .ok vs) :
    ∃ vs0, runThens d.andThens vs0 = .ok vs ∧ Unread d.data i f vs0 := by
  cases r with
  | ok v =>
    obtain ⟨vs0, h1, h2⟩ := (runAndThens_runThens _ _ _).1 h
    exact ⟨vs0, h2, finish_unread (d := d.data) hf ht (init_slot d.data hf hp hg v) rfl h1⟩
  | err e => cases h
  | panic => cases h

omit [Env] in
theorem attrTransparentPost_unread (d : StructDef V) (site : Site V) (hf : d.fields[i]? = some f) (hp : f.isParsable = false)
    (ht : ∀ t, d.default = some t → t.length = d.fields.length) {g : Field V} {k : Nat}
    (hg : d.fields.zipIdx.find? (fun x => x.1.isParsable && !x.1.isFlat) = some (g, k)) (r : Res V) (vs : List V)
    (h : d.attrTransparentPost site k r = .ok vs) :
    ∃ vs0, runThens d.andThens vs0 = .ok vs ∧ Unread (d.attrData site) i f vs0 := by
  cases r with
  | ok v =>
    obtain ⟨vs0, h1, h2⟩ := (runAndThens_runThens _ _ _).1 h
    exact ⟨vs0, h2, finish_unread (d := d.attrData site) hf ht
      (transparent_slot (d.attrData site) hf hp hg v) rfl h1⟩
  | err e => cases h
  | panic => cases h

omit [Env] in
theorem variantPost_unread (v : Variant V) (site : Site V) (span : Span) (hf : v.fields[i]? = some f)
    (hp : f.isParsable = false) {g : Field V} {k : Nat}
    (hg : v.fields.zipIdx.find? (fun x => x.1.isParsable && !x.1.isFlat) = some (g, k)) (r : Res V) (vs : List V)
    (h : v.transparentPost site span k r = .ok vs) : Unread (v.data site span) i f vs := by
  cases r with
  | ok x =>
    simp only [Variant.transparentPost] at h
    obtain ⟨e1, h1, h2⟩ := setPass_eq v.fields
      (List.zipWith (containerSet (v.data site span)) v.fields ((v.data site span).init.set k (.some x))) Errors.new
    rw [h1] at h
    have hz : (List.zipWith (fun f st => (setOut f st).1) v.fields
        (List.zipWith (containerSet (v.data site span)) v.fields ((v.data site span).init.set k (.some x))))[i]? =
        some (setOut f (containerSet (v.data site span) f .none)).1 := by
      have ts : (List.zipWith (containerSet (v.data site span)) v.fields
          ((v.data site span).init.set k (.some x)))[i]? = _ := transparent_slot (v.data site span) hf hp hg x
      rw [List.getElem?_zipWith, hf, ts]
    simp only at h
    rw [unwrapAll_iff.1 h, List.getElem?_map] at hz
    cases hx : vs[i]? with
    | none => rw [hx] at hz; cases hz
    | some y =>
      rw [hx] at hz
      simp only [Option.map_some, Option.some.injEq] at hz
      have hm : (setOut f (containerSet (v.data site span) f .none)).2 = [] := by
        unfold setOut at hz ⊢
        cases hw : withDefault f (containerSet (v.data site span) f .none) with
        | some b =>
          rw [hw] at hz
          simp only [transOut] at hz ⊢
          cases hr : runTransforms f.transforms b with
          | ok _ => rfl
          | error e => rw [hr] at hz; cases hz
        | none => rfl
        | parseError => rfl
      rcases setOut_unread (v.data site span) f hm with ⟨b, w, hb, hr, hv⟩ | ⟨_, _, hv⟩
      · rw [hv] at hz
        cases hz
        exact .inl ⟨b, _, hb, hr, hx⟩
      · rw [hv] at hz
        cases hz
  | err e => cases h
  | panic => cases h

/-! ## Enums -/

/-- A property of the values of all variants and of the default holds of what the `and_then` functions get. -/
theorem enumFlat_okAll {e : EnumDef V} {site : Site V} {Q : EnumVal V → Prop}
    (hd : ∀ x, e.default = some x → Q x)
    (hn : ∀ i v, e.variants[i]? = some v → v.ByName → ∀ pre p sp, OkAll (fun x => Q (i, x)) (v.item site pre p sp))
    (hfl : ∀ i v, e.variants[i]? = some v → v.ByFields → ∀ allowed mode pre validate sp,
      OkAll (fun x => Q (i, x)) (namedFlat (v.data site sp) allowed mode pre validate))
    (mode : Mode) (pre : Str) (validate : Bool) :
    OkAll (fun y => ∃ x, runThens e.andThens x = .ok y ∧ Q x) (enumFlat e site mode pre validate) := by
  intro l y h
  let P : Acc (EnumSt V) → Prop := fun acc => ∀ x, acc.val.value = .some x → Q x
  have hstep : ∀ p sp (st : Acc (EnumSt V) × Stream), P st.1 → P (enumStep e site pre p sp st).2.1 := by
    rintro p sp ⟨acc, s⟩ hst
    unfold enumStep
    simp only
    cases hb : (stripPrefix pre p).bind fun k => (findVariant e.variants k).map fun x => (k, x) with
    | none => exact hst
    | some z =>
      obtain ⟨k, v, i⟩ := z
      simp only
      obtain ⟨k', _, hk⟩ := Option.bind_eq_some_iff.1 hb
      obtain ⟨w, hw, he⟩ := Option.map_eq_some_iff.1 hk
      cases he
      obtain ⟨h1, h2, _⟩ := (findVariant_some _ _ _ _).1 hw
      cases hi : v.item site pre p sp s with
      | mk r s' =>
        cases r with
        | ok x =>
          intro x' hx'
          simp only at hx'
          split at hx'
          · exact hst _ hx'
          · cases hx'
            exact hn i v h1 h2 pre p sp s x (by rw [hi])
        | err err =>
          intro x' hx'
          simp only at hx'
          split at hx'
          · cases hx'
          · exact hst _ hx'
        | panic => exact hst
  have hinv := parseStruct_inv (P := P) (func := enumStep e site pre) hstep ⟨⟨none, .none, []⟩, Errors.new⟩
    (if e.anyFlat || !e.unknownOk then forkInputs l else l) (fun x hx => by cases hx)
  unfold enumFlat at h
  simp only at h
  generalize parseStruct (enumStep e site pre) _ = z at h hinv
  obtain ⟨r, acc, l1⟩ := z
  simp only at hinv
  have hblock : ∀ span paths v i empty errs l value errs' l2, e.variants[i]? = some v → v.ByFields →
      flatBlock e site pre span paths v i empty errs l = (.ok (value, errs'), l2) →
      ∀ x, value = .some x → Q x := by
    intro span paths v i empty errs l value errs' l2 hv hf hb x hx
    subst hx
    simp only [flatBlock] at hb
    split at hb
    · cases hnf : namedFlat (v.data site span) (Field.fieldNames v.fields) (.named span) pre
          (!v.acceptsAll && !(empty && !v.allowUnknown.getD false)) l with
      | mk r2 l3 =>
        rw [hnf] at hb
        cases r2 with
        | ok z =>
          simp only [Prod.mk.injEq, Res.ok.injEq, FieldStatus.some.injEq] at hb
          rw [← hb.1.1]
          exact hfl i v hv hf _ _ _ _ _ l z (by rw [hnf])
        | err _ => simp at hb
        | panic => simp at hb
    · simp at hb
    · simp at hb
  have hpick : ∀ span errs l value errs' l2, pick e site pre span validate acc.val errs l = (.ok (value, errs'), l2) →
      ∀ x, value = .some x → Q x := by
    intro span errs l value errs' l2 hp x hx
    subst hx
    cases hv : acc.val.value with
    | some x' =>
      simp only [pick, hv] at hp
      cases hk : acc.val.key with
      | none => rw [hk] at hp; simp at hp
      | some key =>
        rw [hk] at hp
        simp only at hp
        split at hp
        · simp only [Prod.mk.injEq, Res.ok.injEq, FieldStatus.some.injEq] at hp
          rw [← hp.1.1]
          exact hinv _ hv
        · simp at hp
        · simp at hp
    | parseError => simp [pick, hv] at hp
    | none =>
      simp only [pick, hv, pickFlat] at hp
      split at hp
      · rename_i k v i hfind
        obtain ⟨_, h1, h2⟩ := find_flatMatches (p := fun k => !k.isEmpty && hasPaths acc.val.paths k) hfind
        exact hblock _ _ v i _ _ _ _ _ _ h1 h2 hp x rfl
      · split at hp
        · rename_i k v i hfind
          obtain ⟨_, h1, h2⟩ := find_flatMatches (p := fun k => k.isEmpty) hfind
          exact hblock _ _ v i _ _ _ _ _ _ h1 h2 hp x rfl
        · split at hp
          · rename_i x' hx'
            simp only [Prod.mk.injEq, Res.ok.injEq, FieldStatus.some.injEq] at hp
            rw [← hp.1.1]
            exact hd _ hx'
          · split at hp
            · simp at hp
            · simp at hp
            · simp at hp
  have key : ∀ span errs l1, ((match pick e site pre span validate acc.val errs l1 with
        | (.ok (value, errs), l2) => (conclude e value errs, skipAll l2)
        | (.err x, l2) => (.err x, l2)
        | (.panic, l2) => (.panic, l2) : Res (EnumVal V) × List Stream)).1 = .ok y →
      ∃ x, runThens e.andThens x = .ok y ∧ Q x := by
    intro span errs l1 h
    cases hp : pick e site pre span validate acc.val errs l1 with
    | mk r l2 =>
      rw [hp] at h
      cases r with
      | ok z =>
        obtain ⟨value, errs'⟩ := z
        obtain ⟨_, x, hx, hr⟩ := conclude_ok h
        exact ⟨x, hr, hpick _ _ _ _ _ _ hp x hx⟩
      | err x => cases h
      | panic => cases h
  cases r with
  | ok _ => exact key _ _ _ h
  | err x => exact key _ _ _ h
  | panic => cases h
end

end Deluxe
