import Verif.Lemmas.Reloc
/-!
# The provided implementations do not look at locations
-/
namespace Deluxe

variable {f : Span → Span}

@[simp] theorem flagDisallowedError_reloc (sp : Span) :
    flagDisallowedError (f sp) = (flagDisallowedError sp).reloc f := rfl
@[simp] theorem missingFieldError_reloc (n : Str) (sp : Span) :
    missingFieldError n (f sp) = (missingFieldError n sp).reloc f := rfl

section
variable {α β : Type} {v : α → β}

theorem Dict.Reloc.mk'_all {p : Mode → M Stream α} {p' : Mode → M Stream β} {i : Mode → M (List Stream) α}
    {i' : Mode → M (List Stream) β} {fl : Span → Res α} {fl' : Span → Res β} {ms : Str → Span → Res α}
    {ms' : Str → Span → Res β}
    (hp : ∀ m, RelocS f v (p m) (p' (m.reloc f))) (hi : ∀ m, RelocL f v (i m) (i' (m.reloc f)))
    (hf : ∀ sp, fl' (f sp) = (fl sp).reloc f v) (hm : ∀ n sp, ms' n (f sp) = (ms n sp).reloc f v) :
    (Dict.mk' p i fl ms).Reloc f v (Dict.mk' p' i' fl' ms') :=
  ⟨hp, hi, hf, fun _ sp => parseNamedMetaItem_reloc hp hi hf sp, hm⟩

theorem withModule_reloc {p : Mode → M Stream α} {p' : Mode → M Stream β} {i : Mode → M (List Stream) α}
    {i' : Mode → M (List Stream) β} {fl : Span → Res α} {fl' : Span → Res β} {ms : Str → Span → Res α}
    {ms' : Str → Span → Res β}
    (hp : ∀ m, RelocS f v (p m) (p' (m.reloc f))) (hi : ∀ m, RelocL f v (i m) (i' (m.reloc f)))
    (hf : ∀ sp, fl' (f sp) = (fl sp).reloc f v) (hm : ∀ n sp, ms' n (f sp) = (ms n sp).reloc f v) :
    (withModule p i fl ms).Reloc f v (withModule p' i' fl' ms') :=
  ⟨hp, hi, hf, fun _ sp => parseNamedWith_reloc hp hi hf sp, hm⟩

theorem Dict.Reloc.mk'_parse (hs : f callSite = callSite) {p : Mode → M Stream α} {p' : Mode → M Stream β}
    (hp : ∀ m, RelocS f v (p m) (p' (m.reloc f))) : (Dict.mk' p).Reloc f v (Dict.mk' p') :=
  .mk'_all hp (fun m => parseFirst_reloc hs m (hp m)) (fun _ => rfl) fun _ _ => rfl

theorem Dict.Reloc.map {γ δ : Type} {w : γ → δ} {a : α → γ} {b : β → δ} {d : Dict α} {d' : Dict β}
    (h : d.Reloc f v d') (hq : ∀ x, b (v x) = w (a x)) : (d.map a).Reloc f w (d'.map b) where
  parse m := (h.parse m).map hq
  inline m := (h.inline m).map hq
  flag sp := by simp only [Dict.map, h.flag, Res.reloc_map hq]
  named n sp := (h.named n sp).map hq
  missing n sp := by simp only [Dict.map, h.missing, Res.reloc_map hq]

end

/-! ## Literals and tokens -/

theorem parseLitToks_reloc (ts : List Tok) :
    parseLitToks (Tok.relocs f ts) = (parseLitToks ts).map fun x => (x.1, Tok.relocs f x.2) := by
  match ts with
  | [] => rfl
  | .lit _ _ :: _ => rfl
  | .ident s _ :: _ =>
    simp only [parseLitToks, Tok.relocs_cons, Tok.reloc]
    split
    · rfl
    · split <;> rfl
  | .group _ _ _ _ :: _ => rfl
  | [.punct c _ _] =>
    simp only [Tok.relocs_cons, Tok.relocs_nil, Tok.reloc]
    unfold parseLitToks
    split <;> split <;> simp_all
  | .punct c _ _ :: t :: ts =>
    rcases Decidable.em (c = '-') with rfl | hc
    · match t with
      | .lit l _ => cases l <;> rfl
      | .ident _ _ => rfl
      | .punct _ _ _ => rfl
      | .group _ _ _ _ => rfl
    · simp only [Tok.relocs_cons, Tok.reloc]
      unfold parseLitToks
      split <;> split <;> simp_all

theorem expectLit_reloc {α : Type} (what : Str) (p : LitVal → Option α) :
    RelocS f id (expectLit what p) (expectLit what p) := by
  intro s
  simp only [expectLit, Stream.reloc_toks, parseLitToks_reloc]
  rcases parseLitToks s.toks with _ | ⟨l, rest⟩
  · exact congrArg (fun x => (Res.err x, _)) (Stream.reloc_error s (.expected what))
  · simp only [Option.map_some]
    cases p l
    · exact congrArg (fun x => (Res.err x, _)) (Stream.reloc_error s (.expected what))
    · rfl

theorem parseIdentAny_reloc : RelocS f id parseIdentAny parseIdentAny := by
  rintro ⟨_ | ⟨t, ts⟩, sc, u⟩
  · rfl
  · cases t <;> rfl

theorem parseNothing_reloc : RelocS f id parseNothing parseNothing := by
  rintro ⟨_ | ⟨t, ts⟩, sc, u⟩ <;> rfl

section
variable (hs : f callSite = callSite)
include hs

theorem intDict_reloc {α : Type} (conv : Bool × Nat → Option α) :
    (intDict conv).Reloc f id (intDict conv) :=
  .mk'_parse hs fun _ s => by
    simp only [expectLit_reloc _ _ s, parseLitInt]
    rcases expectLit _ _ s with ⟨_ | _ | _, s'⟩
    · simp only [Res.reloc_ok, id]
      split
      · rfl
      · simp [Text.reloc]
    · rfl
    · rfl

theorem u8Dict_reloc : u8Dict.Reloc f id u8Dict :=
  .mk'_parse hs fun _ s => by
    obtain ⟨_ | ⟨t, ts⟩, sc, u⟩ := s
    · rfl
    · match t with
      | .ident _ _ => rfl
      | .group _ _ _ _ => rfl
      | .lit l sp =>
        cases l
        case int n =>
          simp only [Stream.reloc_toks, Tok.relocs_cons, Tok.reloc]
          split <;> rfl
        all_goals rfl
      | .punct c j sp =>
        rcases Decidable.em (c = '-') with rfl | hc
        · match ts with
          | [] => rfl
          | .lit l _ :: _ => cases l <;> rfl
          | .ident _ _ :: _ => rfl
          | .punct _ _ _ :: _ => rfl
          | .group _ _ _ _ :: _ => rfl
        · simp only [Stream.reloc_toks, Tok.relocs_cons, Tok.reloc]
          split <;> split <;> simp_all
          all_goals first
            | rfl
            | exact Stream.reloc_error _ (.expected _)

theorem boolDict_reloc : boolDict.Reloc f id boolDict :=
  .mk'_all (fun _ => expectLit_reloc _ _) (fun m => parseFirst_reloc hs m (expectLit_reloc _ _)) (fun _ => rfl)
    fun _ _ => rfl
theorem charDict_reloc : charDict.Reloc f id charDict := .mk'_parse hs fun _ => expectLit_reloc _ _
theorem stringDict_reloc : stringDict.Reloc f id stringDict := .mk'_parse hs fun _ => expectLit_reloc _ _
theorem identDict_reloc : identDict.Reloc f id identDict := .mk'_parse hs fun _ => parseIdentAny_reloc

theorem synDict_reloc {α β : Type} {v : α → β} {p : M Stream α} {p' : M Stream β} (h : RelocS f v p p') :
    (synDict p).Reloc f v (synDict p') := .mk'_parse hs fun _ => h

theorem synParenDict_reloc {α β : Type} {v : α → β} {p : M Stream α} {p' : M Stream β} (h : RelocS f v p p') :
    (synParenDict p).Reloc f v (synParenDict p') :=
  .mk'_parse hs fun m => by
    cases m with
    | named sp => exact withContent_reloc .paren (h.bind fun _ => parseNothing_reloc.bind fun _ => RelocM.pure rfl)
    | unnamed => exact h

theorem tokenTreeDict_reloc : tokenTreeDict.Reloc f (Tok.reloc f) tokenTreeDict :=
  .mk'_parse hs fun _ s => by obtain ⟨_ | ⟨t, ts⟩, sc, u⟩ := s <;> rfl

theorem literalDict_reloc : literalDict.Reloc f id literalDict :=
  .mk'_parse hs fun _ s => by
    obtain ⟨_ | ⟨t, ts⟩, sc, u⟩ := s
    · rfl
    · cases t <;> rfl

theorem punctDict_reloc : punctDict.Reloc f id punctDict :=
  .mk'_parse hs fun _ s => by
    obtain ⟨_ | ⟨t, ts⟩, sc, u⟩ := s
    · rfl
    · cases t
      case punct =>
        simp only [Stream.reloc_toks, Tok.relocs_cons, Tok.reloc]
        split <;> rfl
      all_goals rfl

theorem groupDict_reloc : groupDict.Reloc f (Prod.map id (Tok.relocs f)) groupDict :=
  .mk'_parse hs fun _ s => by
    obtain ⟨_ | ⟨t, ts⟩, sc, u⟩ := s
    · rfl
    · cases t <;> rfl

omit hs in
theorem unitDict_reloc : unitDict.Reloc f id unitDict :=
  .mk'_all (fun _ => withContent_reloc .paren parseNothing_reloc) (fun _ _ => rfl) (fun _ => rfl) fun _ _ => rfl

end

/-! ## Streams of tokens -/

theorem takeToks_reloc (ts : List Tok) :
    takeToks (Tok.relocs f ts) = (Tok.relocs f (takeToks ts).1, Tok.relocs f (takeToks ts).2) := by
  induction ts with
  | nil => rfl
  | cons t ts ih =>
    simp only [takeToks, Tok.relocs_cons, Tok.reloc_isComma]
    split
    · rfl
    · rw [ih]; rfl

theorem tokenStreamParse_reloc (m : Mode) :
    RelocS f (Tok.relocs f) (tokenStreamParse m) (tokenStreamParse (m.reloc f)) := by
  intro s
  simp only [tokenStreamParse, Stream.reloc_peekPunct, Stream.reloc_toks, takeToks_reloc, Tok.relocs_isEmpty]
  split
  · simp [Text.reloc]
  · split
    · simp [Text.reloc]
    · rfl

theorem tokenStreamDict_reloc (hs : f callSite = callSite) :
    tokenStreamDict.Reloc f (Tok.relocs f) tokenStreamDict :=
  .mk'_all tokenStreamParse_reloc (fun m => parseFirst_reloc hs m (tokenStreamParse_reloc m)) (fun _ => rfl)
    fun _ _ => rfl

theorem tokenStreamLoop_reloc (n : Nat) :
    RelocM f (Prod.map (Tok.relocs f) (Stream.reloc f)) id (tokenStreamLoop n) (tokenStreamLoop n) := by
  induction n with
  | zero => exact RelocM.panic
  | succ n ih =>
    rintro ⟨tts, s⟩
    have := tokenStreamParse_reloc (f := f) .unnamed s
    simp only [Mode.reloc_unnamed] at this
    simp only [tokenStreamLoop, Prod.map_apply, Stream.reloc_isEmpty, this]
    split
    · rfl
    · rcases tokenStreamParse .unnamed s with ⟨_ | _ | _, s'⟩
      · have := ih (tts ++ ‹_›, s')
        simp only [Prod.map_apply, Tok.relocs_append] at this
        exact this
      · rfl
      · rfl

theorem tokenStreamFlat_reloc : tokenStreamFlat.Reloc f (Tok.relocs f) tokenStreamFlat where
  fieldCount := rfl
  parse _ _ l := by
    have := forStreams_reloc (f := f) (k := Tok.relocs f) (b := tokenStreamLoop) (b' := tokenStreamLoop)
      tokenStreamLoop_reloc ([], l)
    simp only [Prod.map_apply, Tok.relocs_nil] at this
    simp only [tokenStreamFlat, this]
    rcases forStreams tokenStreamLoop ([], l) with ⟨_ | _ | _, a, l'⟩ <;> rfl

/-! ## `Option` and wrappers -/

@[simp] theorem peekIdent_reloc (x : Str) (s : Stream) : peekIdent x (s.reloc f) = peekIdent x s := by
  obtain ⟨_ | ⟨t, ts⟩, sc, u⟩ := s
  · rfl
  · cases t <;> rfl

@[simp] theorem dropTok_reloc (s : Stream) : dropTok (s.reloc f) = (dropTok s).reloc f := Stream.reloc_drop s

section
variable {α β : Type} {v : α → β} {d : Dict α} {d' : Dict β}

theorem optionParse_reloc (h : d.Reloc f v d') (m : Mode) :
    RelocS f (Option.map v) ((optionDict d).parse m) ((optionDict d').parse (m.reloc f)) := by
  cases m with
  | named sp => exact (h.parse (.named sp)).map fun _ => rfl
  | unnamed =>
    intro s
    simp only [optionDict, Dict.mk', Mode.reloc_unnamed, peekIdent_reloc, dropTok_reloc]
    split
    · exact (parseDelimitedMetaItem_reloc .paren .unnamed (h.inline .unnamed)).map (w := Option.map v) (p := some)
        (q := some) (fun _ => rfl) (dropTok s)
    · split
      · rfl
      · exact congrArg (fun x => (Res.err x, _)) (Stream.reloc_error s (.expected _))

theorem optionDict_reloc (hs : f callSite = callSite) (h : d.Reloc f v d') :
    (optionDict d).Reloc f (Option.map v) (optionDict d') :=
  .mk'_all (optionParse_reloc h) (fun m => parseFirst_reloc hs m (optionParse_reloc h m))
    (fun sp => by simp only [h.flag]; cases d.flag sp <;> rfl) fun _ _ => rfl

theorem wrapperDict_reloc (hs : f callSite = callSite) (h : d.Reloc f v d') :
    (wrapperDict d).Reloc f v (wrapperDict d') :=
  .mk'_all h.parse (fun m => parseFirst_reloc hs m (h.parse m)) h.flag fun _ _ => rfl

theorem innerDict_reloc (hs : f callSite = callSite) (h : d.Reloc f v d') :
    (innerDict d).Reloc f v (innerDict d') := .mk'_parse hs h.parse

theorem identityDict_reloc (h : d.Reloc f v d') : (identityDict d).Reloc f v (identityDict d') :=
  withModule_reloc h.parse h.inline h.flag h.missing

theorem withOptional_reloc (hs : f callSite = callSite) (h : d.Reloc f v d') :
    (withOptional d).Reloc f (Option.map v) (withOptional d') :=
  have o := optionDict_reloc hs (innerDict_reloc hs h)
  withModule_reloc o.parse o.inline (fun _ => rfl) fun _ _ => rfl

end

section
variable {E' E : Env} (R : Relocates E E' f) {α β : Type} {v : α → β} {d : Dict α} {d' : Dict β}
include R

omit R in
theorem spannedM_reloc {σ σ' : Type} {g : σ → σ'} {m : M σ α} {m' : M σ' β} (h : RelocM f g v m m')
    {sp : σ → σ → Span} {sp' : σ' → σ' → Span} (hsp : ∀ s, sp' (g s) (g (m s).2) = f (sp s (m s).2)) :
    RelocM f g (Spanned.reloc f v) (fun s => ((m s).1.map fun x => ⟨x, sp s (m s).2⟩, (m s).2))
      (fun s => ((m' s).1.map fun x => ⟨x, sp' s (m' s).2⟩, (m' s).2)) := by
  intro s
  have := hsp s
  simp only [h s, this]
  generalize sp s (m s).2 = x
  rcases m s with ⟨_ | _ | _, s'⟩ <;> rfl

theorem spannedDict_reloc (h : d.Reloc f v d') :
    (spannedDict d).Reloc f (Spanned.reloc f v) (@spannedDict E' β d') where
  parse m := spannedM_reloc (h.parse m) (sp := fun s s' => (E.join s'.span s.span).getD s.span)
    (sp' := fun s s' => (E'.join s'.span s.span).getD s.span) fun s => by simp only [Stream.reloc_span, R.join]
  inline m := by
    refine spannedM_reloc (h.inline m)
      (sp := fun l l' => ((l.head?.map Stream.span).bind fun a => l'.getLast?.bind fun p => E.join p.span a).getD callSite)
      (sp' := fun l l' => ((l.head?.map Stream.span).bind fun a =>
        l'.getLast?.bind fun p => E'.join p.span a).getD callSite) fun l => ?_
    simp only [List.head?_map, List.getLast?_map]
    cases l.head? with
    | none => exact R.site.symm
    | some a =>
      cases (d.inline m l).2.getLast? with
      | none => exact R.site.symm
      | some b =>
        have := R.join b.span a.span callSite
        rw [R.site] at this
        simpa using this
  flag sp := by
    simp only [spannedDict, h.flag]
    cases d.flag sp <;> rfl
  named n sp := spannedM_reloc (h.named n sp) (sp := fun _ s' => (E.join s'.span sp).getD sp)
    (sp' := fun _ s' => (E'.join s'.span (f sp)).getD (f sp)) fun s => by simp only [Stream.reloc_span, R.join]
  missing _ _ := rfl

theorem spannedFlat_reloc {m : M (List Stream) α} {m' : M (List Stream) β} (h : RelocL f v m m') :
    RelocL f (Spanned.reloc f v) (spannedFlat m) (@spannedFlat E' β m') :=
  spannedM_reloc h (sp := fun l l' => (E.join (inputsSpan l) (inputsSpan l')).getD (inputsSpan l))
    (sp' := fun l l' => (E'.join (@inputsSpan E' l) (@inputsSpan E' l')).getD (@inputsSpan E' l))
    fun l => by simp only [inputsSpan_reloc R, R.join]

theorem spannedFlatUnnamed_reloc {d : FlatUnnamed α} {d' : FlatUnnamed β} (h : d.Reloc f v d') :
    (spannedFlatUnnamed d).Reloc f (Spanned.reloc f v) (@spannedFlatUnnamed E' β d') :=
  ⟨h.fieldCount, fun m i => spannedFlat_reloc R (h.parse m i)⟩

theorem spannedFlatNamed_reloc {d : FlatNamed α} {d' : FlatNamed β} (h : d.Reloc f v d') :
    (spannedFlatNamed d).Reloc f (Spanned.reloc f v) (@spannedFlatNamed E' β d') :=
  ⟨h.acceptsAll, h.fieldNames, fun m p b => spannedFlat_reloc R (h.parse m p b)⟩

theorem flagDict_reloc : flagDict.Reloc f (Option.map f) (@flagDict E') where
  parse m s := by
    have := inputsSpan_reloc R [s]
    simp only [List.map_cons, List.map_nil] at this
    simp only [flagDict, this]
    rfl
  inline m l := by
    simp only [flagDict, inputsSpan_reloc R]
    rfl
  flag _ := rfl
  named _ sp s := by
    simp only [flagDict, Stream.reloc_isEmpty, Stream.reloc_peekPunct, Stream.reloc_span]
    split <;> rfl
  missing _ _ := rfl

end

/-! ## Arrays, tuples and sequences -/

section
variable {κ κ' : Type} {k : κ → κ'}

theorem stepHead_reloc {m : M (κ × Stream) Unit} {m' : M (κ' × Stream) Unit}
    (h : RelocM f (Prod.map k (Stream.reloc f)) id m m') :
    RelocM f (Prod.map k (List.map (Stream.reloc f))) id (stepHead m) (stepHead m') := by
  rintro ⟨a, _ | ⟨s, rest⟩⟩
  · rfl
  · have := h (a, s)
    simp only [Prod.map_apply] at this
    simp [stepHead, this]

end

section
variable {E' E : Env} (R : Relocates E E' f) {α β : Type} {v : α → β} {d : Dict α} {d' : Dict β}
include R

omit R in
theorem arrayStep_reloc (n : Nat) {m : M Stream α} {m' : M Stream β} (h : RelocS f v m m') :
    RelocM f (Prod.map (Acc.reloc f (Prod.map (List.map v) id)) (Stream.reloc f)) id (arrayStep n m)
      (arrayStep n m') := by
  rintro ⟨acc, s⟩
  simp only [arrayStep, Prod.map_apply, h s]
  rcases m s with ⟨_ | _ | _, s'⟩
  · simp only [Res.reloc_ok, Acc.reloc, Prod.map_fst, List.length_map]
    split
    · simp [Acc.reloc]
    · rfl
  · simp [Acc.reloc]
  · rfl

theorem arrayFlat_reloc (n : Nat) (h : d.Reloc f v d') :
    (arrayFlat n d).Reloc f (List.map v) (@arrayFlat E' β n d') where
  fieldCount := rfl
  parse m index l := by
    have := parseTupleStruct_reloc (fun _ => stepHead_reloc (arrayStep_reloc n (h.parse .unnamed))) n
      (⟨([], 0), Errors.new⟩, l)
    simp only [Prod.map_apply, Acc.reloc, List.map_nil, id, Errors.reloc_new, Mode.reloc_unnamed] at this
    simp only [arrayFlat, this]
    rcases parseTupleStruct (fun _ => stepHead (arrayStep n (d.parse .unnamed))) n (⟨([], 0), Errors.new⟩, l) with
      ⟨r, ⟨⟨got, bad⟩, errs⟩, l'⟩
    have he : ∀ e : Errors, (if got.length + bad ≠ n then
        (e.reloc f).push (@inputsSpan E' (l'.map (Stream.reloc f))) (.arrayLen index n (got.length + bad))
        else e.reloc f) = Errors.reloc f (if got.length + bad ≠ n then
          e.push (inputsSpan l') (.arrayLen index n (got.length + bad)) else e) := by
      intro e
      rw [inputsSpan_reloc R]
      split
      · exact Errors.reloc_push e _ (.arrayLen index n _)
      · rfl
    rcases r with _ | e | _
    · simp only [Acc.reloc, Prod.map_apply, id, Res.reloc_ok, List.length_map, he, Errors.reloc_check]
      generalize (if got.length + bad ≠ n then errs.push (inputsSpan l') (.arrayLen index n (got.length + bad))
        else errs) = e'
      rcases e'.check with _ | _ | _
      · simp only [Res.reloc_ok, id]
        split <;> rfl
      · rfl
      · rfl
    · simp only [Acc.reloc, Prod.map_apply, id, Res.reloc_err, List.length_map, Errors.reloc_pushSyn, he,
        Errors.reloc_check]
      generalize (if got.length + bad ≠ n then
        (errs.pushSyn e).push (inputsSpan l') (.arrayLen index n (got.length + bad)) else errs.pushSyn e) = e'
      rcases e'.check with _ | _ | _
      · simp only [Res.reloc_ok, id]
        split <;> rfl
      · rfl
      · rfl
    · rfl

theorem arrayDict_reloc (n : Nat) (h : d.Reloc f v d') :
    (arrayDict n d).Reloc f (List.map v) (@arrayDict E' β n d') :=
  .mk'_all (fun _ => parseDelimitedMetaItem_reloc .bracket .unnamed ((arrayFlat_reloc R n h).parse .unnamed 0))
    (fun m => (arrayFlat_reloc R n h).parse m 0) (fun _ => rfl) fun _ _ => rfl

end

section
variable {α β : Type} {v : α → β}

theorem tupleStep_reloc {items : List (M Stream α)} {items' : List (M Stream β)} (index : Nat)
    (h : ∀ i : Nat, match items[i]?, items'[i]? with
      | some m, some m' => RelocS f v m m'
      | none, none => True
      | _, _ => False) :
    RelocM f (Prod.map (Acc.reloc f (List.map (FieldStatus.map · v))) (Stream.reloc f)) id (tupleStep items index)
      (tupleStep items' index) := by
  rintro ⟨acc, s⟩
  have hi := h index
  simp only [tupleStep, Prod.map_apply, Acc.reloc, List.getElem?_map]
  rcases hm : items[index]? with _ | m <;> rcases hm' : items'[index]? with _ | m' <;> rw [hm, hm'] at hi
  · rfl
  · exact hi.elim
  · exact hi.elim
  · rcases acc.val[index]? with _ | st
    · rfl
    · simp only [Option.map_some, parseUnnamedItemWith_reloc hi]
      rw [← List.map_set]
      rfl

theorem firstMissing_reloc (l : List (FieldStatus α)) (i : Nat) :
    firstMissing (l.map (FieldStatus.map · v)) i = firstMissing l i := by
  induction l generalizing i with
  | nil => rfl
  | cons st l ih => simp [firstMissing, ih]

theorem unwrapAll_reloc (l : List (FieldStatus α)) :
    unwrapAll (l.map (FieldStatus.map · v)) = (unwrapAll l).reloc f (List.map v) := by
  induction l with
  | nil => rfl
  | cons st l ih =>
    cases st with
    | some a =>
      have : unwrapAll ((FieldStatus.some a :: l).map (FieldStatus.map · v)) =
        (unwrapAll (l.map (FieldStatus.map · v))).map (v a :: ·) := rfl
      rw [this, ih]
      simp only [unwrapAll, FieldStatus.unwrap]
      cases unwrapAll l <;> rfl
    | none => rfl
    | parseError => rfl

/-- The dictionaries of the one list do with other locations what those of the other list do. -/
abbrev DictsReloc (f : Span → Span) (v : α → β) (ds : List (Dict α)) (ds' : List (Dict β)) : Prop :=
  All2 (Dict.Reloc f v) ds ds'

theorem DictsReloc.length {ds : List (Dict α)} {ds' : List (Dict β)} (h : DictsReloc f v ds ds') :
    ds'.length = ds.length := by
  induction ds generalizing ds' with
  | nil => cases ds' <;> simp_all [All2]
  | cons d ds ih =>
    cases ds' with
    | nil => exact h.elim
    | cons d' ds' => simp [ih h.2]

theorem DictsReloc.get {ds : List (Dict α)} {ds' : List (Dict β)} (h : DictsReloc f v ds ds') (i : Nat) :
    match (ds.map (·.parse .unnamed))[i]?, (ds'.map (·.parse .unnamed))[i]? with
      | some m, some m' => RelocS f v m m'
      | none, none => True
      | _, _ => False := by
  induction ds generalizing ds' i with
  | nil => cases ds' <;> simp_all [All2]
  | cons d ds ih =>
    cases ds' with
    | nil => exact h.elim
    | cons d' ds' =>
      cases i with
      | zero => exact h.1.parse .unnamed
      | succ i => simpa using ih h.2 i

variable {E' E : Env} (R : Relocates E E' f)
include R

theorem tupleFlat_reloc {ds : List (Dict α)} {ds' : List (Dict β)} (h : DictsReloc f v ds ds') :
    (tupleFlat ds).Reloc f (List.map v) (@tupleFlat E' β ds') where
  fieldCount := congrArg some h.length
  parse m index l := by
    have := parseTupleStruct_reloc (fun i => stepHead_reloc (tupleStep_reloc i h.get)) ds.length
      (⟨List.replicate ds.length .none, Errors.new⟩, l)
    have e0 : Acc.reloc f (List.map (FieldStatus.map · v)) ⟨List.replicate ds.length .none, Errors.new⟩ =
        ⟨List.replicate ds.length .none, Errors.new⟩ := by
      simp only [Acc.reloc, List.map_replicate, Errors.reloc_new]
      rfl
    simp only [Prod.map_apply, e0] at this
    simp only [tupleFlat, h.length, this]
    generalize parseTupleStruct _ ds.length (_, l) = X
    obtain ⟨r, ⟨sts, errs⟩, l'⟩ := X
    have hp : ∀ (e : Errors) (i : Nat), (e.reloc f).push (f (inputsSpan l')) (.tupleLen ds.length i) =
        (e.push (inputsSpan l') (.tupleLen ds.length i)).reloc f := fun e i => Errors.reloc_push e _ (.tupleLen _ i)
    rcases r with _ | e | _
    · simp only [Prod.map_apply, Acc.reloc, Res.reloc_ok, firstMissing_reloc, inputsSpan_reloc R, Errors.reloc_check, hp]
      cases firstMissing sts 0 with
      | some i => exact congrArg (·, _) (Errors.reloc_bail _ _)
      | none =>
        simp only
        rcases errs.check with _ | _ | _
        · simp only [Res.reloc_ok, id, unwrapAll_reloc (f := f)]
        · rfl
        · rfl
    · simp only [Prod.map_apply, Acc.reloc, Res.reloc_err, firstMissing_reloc, inputsSpan_reloc R, Errors.reloc_check, hp,
        Errors.reloc_pushSyn]
      cases firstMissing sts 0 with
      | some i => exact congrArg (·, _) (Errors.reloc_bail _ _)
      | none =>
        simp only
        rcases (errs.pushSyn e).check with _ | _ | _
        · simp only [Res.reloc_ok, id, unwrapAll_reloc (f := f)]
        · rfl
        · rfl
    · rfl

theorem tupleDict_reloc {ds : List (Dict α)} {ds' : List (Dict β)} (h : DictsReloc f v ds ds') :
    (tupleDict ds).Reloc f (List.map v) (@tupleDict E' β ds') :=
  .mk'_all (fun _ => parseDelimitedMetaItem_reloc .paren .unnamed ((tupleFlat_reloc R h).parse .unnamed 0))
    (fun m => (tupleFlat_reloc R h).parse m 0) (fun _ => rfl) fun _ _ => rfl

end

section
variable {α β : Type} {v : α → β} {d : Dict α} {d' : Dict β}

theorem pushBack_reloc (acc : Acc (List α)) (a : α) (s s' : Stream) :
    pushBack (acc.reloc f (List.map v)) (v a) (s.reloc f) (s'.reloc f) = (pushBack acc a s s').reloc f (List.map v) := by
  simp [pushBack, Acc.reloc]

theorem seqFlat_reloc (h : d.Reloc f v d') : (seqFlat d).Reloc f (List.map v) (seqFlat d') where
  fieldCount := rfl
  parse _ _ := runAcc_reloc rfl (forStreams_reloc (itemLoop_reloc (stepPush_reloc (h.parse .unnamed) pushBack_reloc)))

theorem seqDict_reloc (h : d.Reloc f v d') : (seqDict d).Reloc f (List.map v) (seqDict d') :=
  .mk'_all (fun _ => parseDelimitedMetaItem_reloc .bracket .unnamed ((seqFlat_reloc h).parse .unnamed 0))
    (fun m => (seqFlat_reloc h).parse m 0) (fun _ => rfl) fun _ _ => rfl

theorem withSeq_reloc (hs : f callSite = callSite) (h : d.Reloc f v d') :
    (withSeq d).Reloc f (List.map v) (withSeq d') :=
  have o := seqDict_reloc (innerDict_reloc hs h)
  withModule_reloc o.parse o.inline (fun _ => rfl) fun _ _ => rfl

theorem withSeqFlat_reloc (hs : f callSite = callSite) (h : d.Reloc f v d') :
    (withSeqFlat d).Reloc f (List.map v) (withSeqFlat d') :=
  ⟨rfl, (seqFlat_reloc (innerDict_reloc hs h)).parse⟩

variable {E' E : Env} (R : Relocates E E' f)
include R

theorem seqAppend_reloc (h : d.Reloc f v d') (paths : List Str) :
    RelocL f (List.map v) (seqAppend d paths) (@seqAppend E' β d' paths) :=
  runAccPush_reloc rfl (parseStruct_reloc R fun p sp =>
    RelocM.ite rfl (stepPush_reloc (h.named p sp) pushBack_reloc) stepSkip_reloc)

theorem withSeqAppend_reloc (h : d.Reloc f v d') (paths : List Str) :
    RelocL f (List.map v) (withSeqAppend d paths) (@withSeqAppend E' β d' paths) :=
  seqAppend_reloc R (innerDict_reloc R.site h) paths

end

/-! ## Sets and maps

The keys are compared, so keys that differ must still differ: `v` is injective on them. -/

section
variable {α β : Type} {v : α → β} {d : Dict α} {d' : Dict β} [DecidableEq α] [DecidableEq β]
  {E' E : Env} (R : Relocates E E' f) (inj : ∀ a b, v a = v b → a = b)
include R inj

omit R [DecidableEq α] [DecidableEq β] in
theorem mem_map_inj (a : α) (l : List α) : v a ∈ l.map v ↔ a ∈ l :=
  ⟨fun h => by
    obtain ⟨b, hb, e⟩ := List.mem_map.1 h
    exact inj b a e ▸ hb, List.mem_map_of_mem⟩

theorem setInsert_reloc (acc : Acc (List α)) (a : α) (s s' : Stream) :
    @setInsert E' β _ (acc.reloc f (List.map v)) (v a) (s.reloc f) (s'.reloc f) =
      (setInsert acc a s s').reloc f (List.map v) := by
  simp only [setInsert, Acc.reloc, mem_map_inj inj, Stream.reloc_span, R.join]
  split
  · exact congrArg (Acc.mk _) (Errors.reloc_push acc.errs _ .duplicateKey)
  · simp

theorem setFlat_reloc (h : d.Reloc f v d') : (setFlat d).Reloc f (List.map v) (@setFlat E' β _ d') where
  fieldCount := rfl
  parse _ _ := runAcc_reloc rfl (forStreams_reloc (itemLoop_reloc
    (stepPush_reloc (h.parse .unnamed) (setInsert_reloc R inj))))

theorem setDict_reloc (h : d.Reloc f v d') : (setDict d).Reloc f (List.map v) (@setDict E' β _ d') :=
  .mk'_all (fun _ => parseDelimitedMetaItem_reloc .bracket .unnamed ((setFlat_reloc R inj h).parse .unnamed 0))
    (fun m => (setFlat_reloc R inj h).parse m 0) (fun _ => rfl) fun _ _ => rfl

theorem setAppend_reloc (h : d.Reloc f v d') (paths : List Str) :
    RelocL f (List.map v) (setAppend d paths) (@setAppend E' β _ d' paths) :=
  runAcc_reloc rfl (parseStruct_reloc R fun p sp =>
    RelocM.ite rfl (stepPush_reloc (h.named p sp) (setInsert_reloc R inj)) stepSkip_reloc)

end

section
variable {α β γ δ : Type} {v : α → β} {w : γ → δ} {kd : Dict α} {kd' : Dict β} {vd : Dict γ} {vd' : Dict δ}
  {ks : α → Str} {ks' : β → Str} [DecidableEq α] [DecidableEq β] {E' E : Env} (R : Relocates E E' f)
  (inj : ∀ a b, v a = v b → a = b) (hks : ∀ a, ks' (v a) = ks a)
include inj

theorem mapInsert_reloc (m : List (α × γ)) (a : α) (c : γ) :
    mapInsert (m.map (Prod.map v w)) (v a) (w c) = (mapInsert m a c).map (Prod.map v w) := by
  have e : (m.map (Prod.map v w)).map (·.1) = (m.map (·.1)).map v := by simp [Function.comp_def]
  simp only [mapInsert, e, mem_map_inj inj]
  split
  · simp only [List.map_map]
    refine List.map_congr_left fun x _ => ?_
    simp only [Function.comp_apply, Prod.map_fst]
    by_cases h : x.1 = a
    · simp [h]
    · have : v x.1 ≠ v a := fun e => h (inj _ _ e)
      simp [h, this]
  · simp

omit [DecidableEq α] [DecidableEq β] in
theorem mapKeys_reloc (m : List (α × γ)) (a : α) :
    v a ∈ (m.map (Prod.map v w)).map (·.1) ↔ a ∈ m.map (·.1) := by
  have e : (m.map (Prod.map v w)).map (·.1) = (m.map (·.1)).map v := by simp [Function.comp_def]
  rw [e, mem_map_inj inj]

include R hks

theorem mapStep_reloc (hk : kd.Reloc f v kd') (hv : vd.Reloc f w vd') :
    RelocM f (Prod.map (Acc.reloc f (List.map (Prod.map v w))) (Stream.reloc f)) id (mapStep kd ks vd)
      (@mapStep E' β δ _ kd' ks' vd') := by
  rintro ⟨acc, s⟩
  have := hk.parse .unnamed s
  simp only [Mode.reloc_unnamed] at this
  simp only [mapStep, Prod.map_apply, this]
  rcases kd.parse .unnamed s with ⟨key | _ | _, s1⟩
  · simp only [Res.reloc_ok, hks, Stream.reloc_span, R.join]
    refine stepPush_reloc (hv.named (ks key) s.span) ?_ (acc, s1)
    intro acc' c _ _
    simp only [Acc.reloc, mapInsert_reloc inj, mapKeys_reloc inj]
    congr 1
    split
    · exact Errors.reloc_push acc'.errs _ .duplicateKey
    · rfl
  · rfl
  · rfl

theorem mapFlat_reloc (hk : kd.Reloc f v kd') (hv : vd.Reloc f w vd') :
    (mapFlat kd ks vd).Reloc f (List.map (Prod.map v w)) (@mapFlat E' β δ _ kd' ks' vd') where
  fieldCount := rfl
  parse _ _ := runAcc_reloc rfl (forStreams_reloc (itemLoop_reloc (mapStep_reloc R inj hks hk hv)))

theorem mapDict_reloc (hk : kd.Reloc f v kd') (hv : vd.Reloc f w vd') :
    (mapDict kd ks vd).Reloc f (List.map (Prod.map v w)) (@mapDict E' β δ _ kd' ks' vd') :=
  .mk'_all (fun m => parseDelimitedMetaItem_reloc .brace m ((mapFlat_reloc R inj hks hk hv).parse m 0))
    (fun m => (mapFlat_reloc R inj hks hk hv).parse m 0) (fun _ => rfl) fun _ _ => rfl

theorem restStep_reloc (hk : kd.Reloc f v kd') (hv : vd.Reloc f w vd') (ex : List Str) :
    RelocM f (Prod.map (Acc.reloc f (List.map (Prod.map v w))) (Stream.reloc f)) id (restStep kd ks vd ex)
      (@restStep E' β δ _ kd' ks' vd' ex) := by
  rintro ⟨acc, s⟩
  have := hk.parse .unnamed s
  simp only [Mode.reloc_unnamed] at this
  simp only [restStep, Prod.map_apply, this]
  rcases kd.parse .unnamed s with ⟨key | _ | _, s1⟩
  · simp only [Res.reloc_ok, hks, Stream.reloc_span, R.join]
    split
    · simp
    · rw [hv.named (ks key) s.span s1]
      rcases vd.named (ks key) s.span s1 with ⟨c | _ | _, s2⟩
      · simp only [Res.reloc_ok, Acc.reloc, mapInsert_reloc inj, mapKeys_reloc inj, id, Prod.map_apply]
        congr 3
        split
        · exact Errors.reloc_push acc.errs _ .duplicateKey
        · rfl
      · simp [Acc.reloc]
      · rfl
  · rfl
  · rfl

theorem mapRest_reloc (hk : kd.Reloc f v kd') (hv : vd.Reloc f w vd') (ex : List Str) :
    RelocL f (List.map (Prod.map v w)) (mapRest kd ks vd ex) (@mapRest E' β δ _ kd' ks' vd' ex) :=
  runAcc_reloc rfl (forStreams_reloc (itemLoop_reloc (restStep_reloc R inj hks hk hv ex)))

theorem withMap_reloc (hk : kd.Reloc f v kd') (hv : vd.Reloc f w vd') :
    (withMap kd ks vd).Reloc f (List.map (Prod.map v w)) (@withMap E' β δ _ kd' ks' vd') :=
  have o := mapDict_reloc R inj hks (innerDict_reloc R.site hk) (innerDict_reloc R.site hv)
  withModule_reloc o.parse o.inline (fun _ => rfl) fun _ _ => rfl

theorem withMapFlat_reloc (hk : kd.Reloc f v kd') (hv : vd.Reloc f w vd') :
    (withMapFlat kd ks vd).Reloc f (List.map (Prod.map v w)) (@withMapFlat E' β δ _ kd' ks' vd') :=
  ⟨rfl, (mapFlat_reloc R inj hks (innerDict_reloc R.site hk) (innerDict_reloc R.site hv)).parse⟩

theorem withMapRest_reloc (hk : kd.Reloc f v kd') (hv : vd.Reloc f w vd') (ex : List Str) :
    RelocL f (List.map (Prod.map v w)) (withMapRest kd ks vd ex) (@withMapRest E' β δ _ kd' ks' vd' ex) :=
  mapRest_reloc R inj hks (innerDict_reloc R.site hk) (innerDict_reloc R.site hv) ex

end

/-! ## `Punctuated` -/

section
variable {α β : Type} {v : α → β} {d : Dict α} {d' : Dict β} {peekP peekP' : Stream → Bool}
  {parseP parseP' : M Stream Unit} (hpk : ∀ s, peekP' (s.reloc f) = peekP s) (hps : RelocS f id parseP parseP')
include hpk hps

theorem punctSkip_reloc (ts : List Tok) :
    RelocS f id (punctSkip peekP parseP ts) (punctSkip peekP' parseP' (Tok.relocs f ts)) := by
  induction ts with
  | nil => exact fun _ => rfl
  | cons t ts ih =>
    intro s
    simp only [Tok.relocs_cons, punctSkip, hpk]
    split
    · exact hps s
    · exact ih { s with toks := ts }

theorem punctLoop_reloc {m : M Stream α} {m' : M Stream β} (h : RelocS f v m m') (n : Nat) :
    RelocM f (Prod.map (Acc.reloc f (List.map v)) (Stream.reloc f)) id (punctLoop m peekP parseP n)
      (punctLoop m' peekP' parseP' n) := by
  induction n with
  | zero => exact RelocM.panic
  | succ n ih =>
    rintro ⟨acc, s⟩
    simp only [punctLoop, Prod.map_apply, Stream.reloc_isEmpty, h s]
    split
    · rfl
    · rcases m s with ⟨a | e | _, s'⟩
      · have e1 : (⟨(acc.reloc f (List.map v)).val ++ [v a], (acc.reloc f (List.map v)).errs⟩ : Acc (List β)) =
            Acc.reloc f (List.map v) ⟨acc.val ++ [a], acc.errs⟩ := by simp [Acc.reloc]
        simp only [Res.reloc_ok, Stream.reloc_isEmpty, hps s', e1]
        split
        · exact ih (⟨acc.val ++ [a], acc.errs⟩, s')
        · rcases parseP s' with ⟨_ | e | _, s''⟩
          · rfl
          · have e2 : (⟨(acc.reloc f (List.map v)).val ++ [v a], (acc.reloc f (List.map v)).errs.pushSyn (e.reloc f)⟩ :
                Acc (List β)) = Acc.reloc f (List.map v) ⟨acc.val ++ [a], acc.errs.pushSyn e⟩ := by simp [Acc.reloc]
            simp only [Res.reloc_err, e2]
            exact ih (⟨acc.val ++ [a], acc.errs.pushSyn e⟩, s'')
          · rfl
      · have e2 : (⟨(acc.reloc f (List.map v)).val, (acc.reloc f (List.map v)).errs.pushSyn (e.reloc f)⟩ :
            Acc (List β)) = Acc.reloc f (List.map v) ⟨acc.val, acc.errs.pushSyn e⟩ := by simp [Acc.reloc]
        simp only [Res.reloc_err, Stream.reloc_toks, punctSkip_reloc hpk hps s'.toks s', e2]
        rcases punctSkip peekP parseP s'.toks s' with ⟨_ | e' | _, s''⟩
        · exact ih (⟨acc.val, acc.errs.pushSyn e⟩, s'')
        · rfl
        · rfl
      · rfl

theorem punctFlat_reloc (h : d.Reloc f v d') :
    (punctFlat d peekP parseP).Reloc f (List.map v) (punctFlat d' peekP' parseP') where
  fieldCount := rfl
  parse _ _ := runAcc_reloc rfl (forStreams_reloc (punctLoop_reloc hpk hps (h.parse .unnamed)))

theorem punctuatedDict_reloc (h : d.Reloc f v d') :
    (punctuatedDict d peekP parseP).Reloc f (List.map v) (punctuatedDict d' peekP' parseP') :=
  .mk'_all (fun _ => parseDelimitedMetaItem_reloc .bracket .unnamed ((punctFlat_reloc hpk hps h).parse .unnamed 0))
    (fun m => (punctFlat_reloc hpk hps h).parse m 0) (fun _ => rfl) fun _ _ => rfl

end

/-! ## The `with` modules -/

section
variable {α β : Type} {v : α → β} {d : Dict α} {d' : Dict β} (hs : f callSite = callSite)

theorem fromStrParse_reloc (conv : Str → Except Str α) (m : Mode) :
    RelocS f id (fromStrParse conv m) (fromStrParse conv (m.reloc f)) := by
  intro s
  simp only [fromStrParse, parseLitStr, expectLit_reloc _ _ s]
  rcases expectLit _ _ s with ⟨_ | _ | _, s'⟩
  · simp only [Res.reloc_ok, id]
    split
    · rfl
    · simp [Text.reloc]
  · rfl
  · rfl

theorem SynErr.reloc_moveTo (sp : Span) (e : SynErr) : (e.reloc f).moveTo (f sp) = (e.moveTo sp).reloc f := by
  simp [SynErr.moveTo, SynErr.reloc, Msg.reloc, Function.comp_def]

@[simp] theorem peekLitStr_reloc (s : Stream) : peekLitStr (s.reloc f) = peekLitStr s := by
  obtain ⟨_ | ⟨t, ts⟩, sc, u⟩ := s
  · rfl
  · cases t with
    | lit l sp => cases l <;> rfl
    | _ => rfl

include hs

theorem fromStrDict_reloc (conv : Str → Except Str α) : (fromStrDict conv).Reloc f id (fromStrDict conv) :=
  withModule_reloc (fromStrParse_reloc conv) (fun m => parseFirst_reloc hs m (fromStrParse_reloc conv m))
    (fun _ => rfl) fun _ _ => rfl

theorem fromStrDefaultDict_reloc (conv : Str → Except Str α) (dflt : α) :
    (fromStrDefaultDict conv dflt).Reloc f id (fromStrDefaultDict conv dflt) :=
  withModule_reloc (fromStrParse_reloc conv) (fun m => parseFirst_reloc hs m (fromStrParse_reloc conv m))
    (fun _ => rfl) fun _ _ => rfl

theorem modPathDict_reloc {p : M Stream α} {p' : M Stream β} (h : RelocS f v p p') :
    (modPathDict p).Reloc f v (modPathDict p') :=
  withModule_reloc (fun _ => h) (fun m => parseFirst_reloc hs m h) (fun _ => rfl) fun _ _ => rfl

theorem anyPathDict_reloc {E' E : Env} (R : Relocates E E' f) :
    anyPathDict.Reloc f (Path.reloc f) (@anyPathDict E') :=
  withModule_reloc (fun _ => parseAnyPath_reloc R) (fun m => parseFirst_reloc hs m (parseAnyPath_reloc R))
    (fun _ => rfl) fun _ _ => rfl

variable {lex lex' : Str → Except SynErr (List Tok)} (hl : LexReloc f lex lex')

theorem withSynDict_reloc {p : M Stream α} {p' : M Stream β} (h : RelocS f v p p') :
    (withSynDict p).Reloc f v (withSynDict p') :=
  withModule_reloc (fun _ => h) (fun m => parseFirst_reloc hs m h) (fun sp => parseEmpty_reloc hs h sp)
    fun _ _ => rfl

include hl

theorem parseStr_reloc {m : M Stream α} {m' : M Stream β} (h : RelocS f v m m') (x : Str) :
    parseStr lex' m' x = (parseStr lex m x).reloc f v := by
  simp only [parseStr, hl x, relocExcept]
  cases lex x with
  | ok toks => exact parse2_reloc hs h toks
  | error e => rfl

theorem quotedParse_reloc {m : M Stream α} {m' : M Stream β} (h : RelocS f v m m') :
    RelocS f v (quotedParse lex m) (quotedParse lex' m') := by
  intro s
  simp only [quotedParse, parseLitStr, expectLit_reloc _ _ s]
  rcases expectLit _ _ s with ⟨x | _ | _, s'⟩
  · simp only [Res.reloc_ok, id, parseStr_reloc hs hl h]
    cases parseStr lex m x with
    | err e => simp [SynErr.reloc_moveTo]
    | ok a => rfl
    | panic => rfl
  · rfl
  · rfl

theorem quotedDict_reloc (h : d.Reloc f v d') : (quotedDict lex d).Reloc f v (quotedDict lex' d') :=
  withModule_reloc (fun m => quotedParse_reloc hs hl (h.parse m))
    (fun m => parseFirst_reloc hs m (quotedParse_reloc hs hl (h.parse m))) h.flag h.missing

theorem maybeQuotedParse_reloc (h : d.Reloc f v d') (m : Mode) :
    RelocS f v (maybeQuotedParse lex d m) (maybeQuotedParse lex' d' (m.reloc f)) := by
  intro s
  simp only [maybeQuotedParse, peekLitStr_reloc]
  split
  · exact quotedParse_reloc hs hl (h.parse m) s
  · exact h.parse m s

theorem maybeQuotedDict_reloc (h : d.Reloc f v d') :
    (maybeQuotedDict lex d).Reloc f v (maybeQuotedDict lex' d') :=
  withModule_reloc (maybeQuotedParse_reloc hs hl h)
    (fun m => parseFirst_reloc hs m (maybeQuotedParse_reloc hs hl h m)) h.flag h.missing

theorem synQuotedDict_reloc {p : M Stream α} {p' : M Stream β} (h : RelocS f v p p') :
    (synQuotedDict lex p).Reloc f v (synQuotedDict lex' p') :=
  withModule_reloc (fun _ => quotedParse_reloc hs hl h) (fun m => parseFirst_reloc hs m (quotedParse_reloc hs hl h))
    (fun sp => parseEmpty_reloc hs h sp) fun _ _ => rfl

end
end Deluxe
