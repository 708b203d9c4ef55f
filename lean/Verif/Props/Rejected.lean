import Verif.Lemmas.TidyDerive
import Verif.Props.Reorder
import Verif.Props.WriteDerive
import Verif.Props.Progress
import Verif.Props.TopParse
/-!
# C112: a value that was read is not rejected afterwards

`syn` notes the first token that was left in a group, and the outermost `parse2` reports it even though all functions
in between returned a value.  All types that look for the end of their groups themselves never get there.
-/
namespace Deluxe

/-- The outcome of `parse2` if nothing is noted on the way: the outcome of the parser, and only tokens after the value
are reported. -/
def Plainly {α : Type} (r : Res α) (left : List Tok) : Res α :=
  match r, left with
  | .ok _, t :: _ => .err (.new t.span .unexpectedToken)
  | r, _ => r

/-- The types provided by the library and the derived ones, without `()` and the types of `syn` that are read from
parentheses. -/
inductive Closed [Env] : {α : Type} → Dict α → Prop
  | int {α : Type} (conv : Bool × Nat → Option α) : Closed (intDict conv)
  | u8 : Closed u8Dict
  | bool : Closed boolDict
  | char : Closed charDict
  | string : Closed stringDict
  | ident : Closed identDict
  | syn {α : Type} {p : M Stream α} : Tidy p → Closed (synDict p)
  | tokenTree : Closed tokenTreeDict
  | literal : Closed literalDict
  | punct : Closed punctDict
  | group : Closed groupDict
  | tokenStream : Closed tokenStreamDict
  | flag : Closed flagDict
  | option {α : Type} {d : Dict α} : Closed d → Closed (optionDict d)
  | wrapper {α : Type} {d : Dict α} : Closed d → Closed (wrapperDict d)
  | spanned {α : Type} {d : Dict α} : Closed d → Closed (spannedDict d)
  | map {α β : Type} (f : α → β) {d : Dict α} : Closed d → Closed (d.map f)
  | array {α : Type} (n : Nat) {d : Dict α} : Closed d → Closed (arrayDict n d)
  | tuple {α : Type} {ds : List (Dict α)} : (∀ d ∈ ds, Closed d) → Closed (tupleDict ds)
  | seq {α : Type} {d : Dict α} : Closed d → Closed (seqDict d)
  | set {α : Type} [DecidableEq α] {d : Dict α} : Closed d → Closed (setDict d)
  | mapColl {κ ν : Type} [DecidableEq κ] {kd : Dict κ} {vd : Dict ν} (keyStr : κ → Str) :
      Closed kd → Closed vd → Closed (mapDict kd keyStr vd)
  | punctuated {α : Type} {d : Dict α} {peekP : Stream → Bool} {parseP : M Stream Unit} : Tidy parseP → Closed d →
      Closed (punctuatedDict d peekP parseP)
  | user {α : Type} {d : Dict α} : d.Tidy → Closed d
  | struct {V : Type} {d : StructDef V} : d.FieldsFine → (∀ f ∈ d.fields, Closed f.item) →
      (d.shape = .named → ∀ f ∈ d.fields, f.flatParsable = true → ∀ pre sp allowed, TidyL (f.flatCall pre sp allowed)) →
      (d.shape = .unnamed → ∀ f ∈ d.fields, f.flatParsable = true → ∀ i, TidyL (f.flatUnnamed.parse .unnamed i)) →
      Closed d.dict
  | enum {V : Type} {e : EnumDef V} : e.Accepted .meta → e.FieldsFine →
      (∀ v ∈ e.variants, v.isSkipped = false → ∀ f ∈ v.fields, Closed f.item) →
      (∀ v ∈ e.variants, v.isSkipped = false → v.shape = .named → ∀ f ∈ v.fields, f.flatParsable = true →
        ∀ pre sp allowed, TidyL (f.flatCall pre sp allowed)) →
      (∀ v ∈ e.variants, v.isSkipped = false → v.shape = .unnamed → ∀ f ∈ v.fields, f.flatParsable = true → ∀ i,
        TidyL (f.flatUnnamed.parse .unnamed i)) →
      Closed e.dict

section
variable {α V : Type} [Env]

omit [Env] in
theorem shapeTidy_of {shape : Shape} {fields : List (Field V)} (hp : ∀ f ∈ fields, f.item.Tidy)
    (hf : shape = .named → ∀ f ∈ fields, f.flatParsable = true → ∀ pre sp allowed, TidyL (f.flatCall pre sp allowed))
    (hu : shape = .unnamed → ∀ f ∈ fields, f.flatParsable = true → ∀ i, TidyL (f.flatUnnamed.parse .unnamed i)) :
    ShapeTidy shape fields := by
  cases shape with
  | named => exact ⟨fun f h _ _ => hp f h, hf rfl⟩
  | unnamed => exact ⟨fun f h _ _ => hp f h, hu rfl⟩
  | unit => trivial

theorem Closed.tidy {d : Dict α} (h : Closed d) : d.Tidy := by
  induction h with
  | int conv => exact intDict_tidy conv
  | u8 => exact u8Dict_tidy
  | bool => exact boolDict_tidy'
  | char => exact charDict_tidy
  | string => exact stringDict_tidy
  | ident => exact identDict_tidy
  | syn h => exact synDict_tidy h
  | tokenTree => exact tokenTreeDict_tidy
  | literal => exact literalDict_tidy
  | punct => exact punctDict_tidy
  | group => exact groupDict_tidy
  | tokenStream => exact tokenStreamDict_tidy
  | flag => exact flagDict_tidy
  | option _ ih => exact optionDict_tidy ih
  | wrapper _ ih => exact wrapperDict_tidy ih
  | spanned _ ih => exact spannedDict_tidy ih
  | map f _ ih => exact ih.map f
  | array n _ ih => exact arrayDict_tidy ih.parse n
  | tuple _ ih => exact tupleDict_tidy fun d hd => (ih d hd).parse
  | seq _ ih => exact seqDict_tidy ih.parse
  | set _ ih => exact setDict_tidy ih.parse
  | mapColl keyStr _ _ ihk ihv => exact mapDict_tidy keyStr ihk.parse ihv.named
  | punctuated hp _ ih => exact punctuatedDict_tidy ih.parse hp
  | user h => exact h
  | @struct V d hg _ hf hu ih =>
    exact d.dict_tidy (fun _ f hf _ _ => ih f hf)
      (fun _ hs => ⟨fun f hf _ n sp => (hg.item f hf).named n sp, fun f hf => (hg.item f hf).missing, hg.flat hs⟩)
      fun _ => shapeTidy_of ih hf hu
  | @enum V e ha hg _ hf hu ih =>
    refine e.dict_tidy (fun v hv hs => ⟨fun hn => ?_, shapeTidy_of (ih v hv hs) (hf v hv hs) (hu v hv hs),
      fun _ f h _ _ => ih v hv hs f h⟩) fun v hv hs h => (ha v hv hs).flatten h
    have hg := hg v hv hs
    exact ⟨fun f hf _ n sp => (hg.item f hf).named n sp, fun f hf => (hg.item f hf).missing, hg.flat hn⟩

/-- C112, what holds: if reading the input of a macro by such a type gives a value, this value is returned, unless there
are tokens after it; if it fails, the error is returned unchanged. -/
theorem c112_top_partial {d : Dict α} (h : Closed d) (toks : List Tok) :
    topParse2 d toks = Plainly (d.inline (.named callSite) [⟨toks, callSite, none⟩]).1
      ((d.inline (.named callSite) [⟨toks, callSite, none⟩]).2.headD ⟨toks, callSite, none⟩).toks := by
  have ht := (h.tidy.inline (.named callSite)).all ⟨toks, callSite, none⟩ rfl
  unfold topParse2 parse2 single Plainly
  generalize d.inline (.named callSite) [⟨toks, callSite, none⟩] = q at ht ⊢
  obtain ⟨r, l⟩ := q
  cases r with
  | ok a =>
    dsimp only at ht ⊢
    rw [ht a rfl]
    cases (l.headD ⟨toks, callSite, none⟩).toks <;> rfl
  | err e => cases (l.headD ⟨toks, callSite, none⟩).toks <;> rfl
  | panic => cases (l.headD ⟨toks, callSite, none⟩).toks <;> rfl

/-- C112: nothing unexpected is noted by a value that is read inside of another one either: as an element, from
parentheses or after a name. -/
theorem c112_inside {d : Dict α} (h : Closed d) :
    (∀ m s a, s.unexp = none → (d.parse m s).1 = .ok a → (d.parse m s).2.unexp = none) ∧
    (∀ m l a, (∀ s ∈ l, s.unexp = none) → (d.inline m l).1 = .ok a → ∀ s ∈ (d.inline m l).2, s.unexp = none) ∧
    ∀ n sp s a, s.unexp = none → (d.named n sp s).1 = .ok a → (d.named n sp s).2.unexp = none :=
  ⟨fun m s a hs ha => (h.tidy.parse m s hs a ha).1, fun m l a hl ha => h.tidy.inline m l hl a ha,
    fun n sp s a hs ha => (h.tidy.named n sp s hs a ha).1⟩

/-- C112: what the hypotheses of `Closed` ask of flattened fields holds for everything that the library and the derives
provide for them. -/
theorem c112_flat {κ ν : Type} [DecidableEq α] [DecidableEq κ] {d : Dict α} {kd : Dict κ} {vd : Dict ν} (h : Closed d)
    (hk : Closed kd) (hv : Closed vd) (keyStr : κ → Str) (names : List Str) (m : Mode) (i n : Nat) :
    (TidyL (seqAppend d names) ∧ TidyL (setAppend d names) ∧ TidyL (mapRest kd keyStr vd names)) ∧
    TidyL ((seqFlat d).parse m i) ∧ TidyL ((setFlat d).parse m i) ∧ TidyL ((mapFlat kd keyStr vd).parse m i) ∧
    TidyL ((arrayFlat n d).parse m i) ∧ TidyL (tokenStreamFlat.parse m i) ∧
    (∀ peekP parseP, Tidy parseP → TidyL ((punctFlat d peekP parseP).parse m i)) ∧
    ∀ p : M (List Stream) α, TidyL p → TidyL (spannedFlat p) :=
  ⟨⟨(seqAppend_drains h.tidy.named names).tidyL, (setAppend_drains h.tidy.named names).tidyL,
    (mapRest_drains keyStr hk.tidy.parse hv.tidy.named names).tidyL⟩, seqFlat_tidy h.tidy.parse m i,
    setFlat_tidy h.tidy.parse m i, mapFlat_tidy keyStr hk.tidy.parse hv.tidy.named m i,
    arrayFlat_tidy h.tidy.parse n m i, tokenStreamFlat_tidy m i,
    fun _ _ hp => punctFlat_tidy h.tidy.parse hp m i, fun _ => spannedFlat_tidy⟩

theorem c112_flat_tuple {ds : List (Dict α)} (h : ∀ d ∈ ds, Closed d) (m : Mode) (i : Nat) :
    TidyL ((tupleFlat ds).parse m i) := tupleFlat_tidy (fun d hd => (h d hd).tidy.parse) m i

theorem c112_flat_struct {d : StructDef V} (hg : d.FieldsFine) (hc : ∀ f ∈ d.fields, Closed f.item)
    (hf : d.shape = .named → ∀ f ∈ d.fields, f.flatParsable = true → ∀ pre sp allowed, TidyL (f.flatCall pre sp allowed))
    (hu : d.shape = .unnamed → ∀ f ∈ d.fields, f.flatParsable = true → ∀ i, TidyL (f.flatUnnamed.parse .unnamed i))
    (m : Mode) (i : Nat) (pre : Str) (validate : Bool) :
    (d.shape = .named → TidyL (d.flatNamed.parse m pre validate)) ∧
      (d.shape ≠ .unit → TidyL (d.flatUnnamed.parse m i)) := by
  have good : d.shape = .named → FieldsGood d.fields := fun hs =>
    ⟨fun f hf _ n sp => (hg.item f hf).named n sp, fun f hf => (hg.item f hf).missing, hg.flat hs⟩
  have ht : ShapeTidy d.shape d.fields := shapeTidy_of (fun f h => (hc f h).tidy) hf hu
  refine ⟨fun hs => d.flatNamed_tidy (good hs) ?_ m pre validate, fun hs => d.flatUnnamed_tidy hs good ht m i⟩
  rw [hs] at ht
  exact ht

theorem c112_flat_enum {e : EnumDef V} (ha : e.Accepted .meta) (hg : e.FieldsFine)
    (hc : ∀ v ∈ e.variants, v.isSkipped = false → ∀ f ∈ v.fields, Closed f.item)
    (hf : ∀ v ∈ e.variants, v.isSkipped = false → v.shape = .named → ∀ f ∈ v.fields, f.flatParsable = true →
      ∀ pre sp allowed, TidyL (f.flatCall pre sp allowed))
    (hu : ∀ v ∈ e.variants, v.isSkipped = false → v.shape = .unnamed → ∀ f ∈ v.fields, f.flatParsable = true → ∀ i,
      TidyL (f.flatUnnamed.parse .unnamed i)) (m : Mode) (pre : Str) (validate : Bool) :
    TidyL (e.flatNamed.parse m pre validate) := by
  refine enumFlat_tidy (fun v hv hs => ⟨fun hn => ?_, shapeTidy_of (fun f h => (hc v hv hs f h).tidy) (hf v hv hs)
    (hu v hv hs), fun _ f h _ _ => (hc v hv hs f h).tidy⟩) (fun v hv hs h => (ha v hv hs).flatten h) .meta m pre validate
  have hg := hg v hv hs
  exact ⟨fun f hf _ n sp => (hg.item f hf).named n sp, fun f hf => (hg.item f hf).missing, hg.flat hn⟩

/-! ## Attributes -/

/-- The contents of attributes written as `#[name(..)]` or `#[name]`. -/
inductive Opened : List (List Tok × Str × Span) → List Stream → Prop
  | nil : Opened [] []
  | path {attrs l} (id : Str × Span) : Opened attrs l → Opened (([], id) :: attrs) (⟨[], callSite, none⟩ :: l)
  | list {attrs l} (inner rest : List Tok) (a b : Span) (id : Str × Span) : AtEnd rest → Opened attrs l →
      Opened ((.group .paren inner a b :: rest, id) :: attrs) (⟨inner, b, none⟩ :: l)

omit [Env] in
theorem Opened.fresh {attrs : List (List Tok × Str × Span)} {l : List Stream} (h : Opened attrs l) : Fresh l := by
  induction h with
  | nil => intro s hs; cases hs
  | path _ _ ih => exact .cons rfl ih
  | list _ _ _ _ _ _ _ ih => exact .cons rfl ih

omit [Env] in
theorem Opened.streams {attrs : List (List Tok × Str × Span)} {l ss ss' : List Stream} (h : Opened attrs l)
    (hs : AttrStreams attrs ss ss') : ss = l ∧ ∀ s ∈ ss', AtEnd s.toks := by
  induction h generalizing ss ss' with
  | nil => cases hs; exact ⟨rfl, fun _ h => (by cases h)⟩
  | path _ _ ih =>
    cases hs with
    | bare h1 h2 =>
      obtain ⟨rfl, h3⟩ := ih h2
      exact ⟨rfl, fun s hs => (List.mem_cons.1 hs).elim (fun h => h ▸ h1) (h3 s)⟩
  | list _ _ _ _ _ _ _ ih =>
    cases hs with
    | group _ h1 _ h2 =>
      obtain ⟨rfl, h3⟩ := ih h2
      exact ⟨rfl, fun s hs => (List.mem_cons.1 hs).elim (fun h => h ▸ h1) (h3 s)⟩

omit [Env] in
theorem Opened.attrStreams {attrs : List (List Tok × Str × Span)} {l ss' : List Stream} (h : Opened attrs l)
    (hl : ss'.length = l.length) (hf : Fresh ss') (he : ∀ s ∈ ss', AtEnd s.toks) : AttrStreams attrs l ss' := by
  induction h generalizing ss' with
  | nil => cases ss' with
    | nil => exact .nil
    | cons => cases hl
  | path _ _ ih => cases ss' with
    | nil => cases hl
    | cons s ss' =>
      exact .bare (he s List.mem_cons_self) (ih (Nat.succ.inj hl) (fun t ht => hf t (List.mem_cons_of_mem _ ht))
        fun t ht => he t (List.mem_cons_of_mem _ ht))
  | list _ _ _ _ _ hr _ ih => cases ss' with
    | nil => cases hl
    | cons s ss' =>
      exact .group hr (he s List.mem_cons_self) (hf s List.mem_cons_self) (ih (Nat.succ.inj hl)
        (fun t ht => hf t (List.mem_cons_of_mem _ ht)) fun t ht => he t (List.mem_cons_of_mem _ ht))

omit [Env] in
theorem attributes_plainly {func : List (Str × Span) → M (List Stream) α} (hf : ∀ ps, TidyL (func ps))
    (hl : ∀ ps l, (func ps l).2.length = l.length) {attrs : List (List Tok × Str × Span)} {l : List Stream}
    (ho : Opened attrs l) (v : α) :
    parseStructAttrTokens attrs func = .ok v ↔ (func (attrs.map (·.2)) l).1 = .ok v ∧
      ∀ s ∈ (func (attrs.map (·.2)) l).2, AtEnd s.toks := by
  rw [c19_attr_tokens attrs func hl]
  constructor
  · rintro ⟨ss, ss', h1, h2⟩
    obtain ⟨rfl, h3⟩ := ho.streams h1
    rw [h2]
    exact ⟨rfl, h3⟩
  · rintro ⟨h1, h2⟩
    exact ⟨l, _, ho.attrStreams (hl _ l) (hf _ l ho.fresh v h1) h2, Prod.ext h1 rfl⟩

theorem StructDef.attrBody_tidy {d : StructDef V} (hg : d.FieldsFine) (hc : ∀ f ∈ d.fields, Closed f.item)
    (hf : d.shape = .named → ∀ f ∈ d.fields, f.flatParsable = true → ∀ pre sp allowed, TidyL (f.flatCall pre sp allowed))
    (hu : d.shape = .unnamed → ∀ f ∈ d.fields, f.flatParsable = true → ∀ i, TidyL (f.flatUnnamed.parse .unnamed i))
    (site : Site V) (m : Mode) : TidyL (d.attrBody site m) := by
  have ht : ShapeTidy d.shape d.fields := shapeTidy_of (fun f h => (hc f h).tidy) hf hu
  unfold StructDef.attrBody
  split
  · split
    · next f k h =>
      have hm := List.mem_zipIdx (List.mem_of_find?_eq_some h)
      have hm : f ∈ d.fields := hm.2.2 ▸ List.getElem_mem _
      refine ((hc f hm).tidy.inline m).mapRes fun r b h => ?_
      cases r with
      | ok a => exact ⟨a, rfl⟩
      | err e => cases h
      | panic => cases h
    · intro l _ a h
      cases h
  · cases hs : d.shape with
    | named =>
      rw [hs] at ht
      exact (namedFlat_tidy (d := d.attrData site) ⟨fun f hf _ n sp => (hg.item f hf).named n sp,
        fun f hf => (hg.item f hf).missing, hg.flat hs⟩ ht _ m [] _).mapRes (runAndThens_noRescue _)
    | unnamed =>
      rw [hs] at ht
      exact (unnamedFlat_tidy (d := d.attrData site) ht m 0).mapRes (runAndThens_noRescue _)
    | unit =>
      intro l hl a h
      dsimp only at h ⊢
      generalize he : eofAll l = q at h ⊢
      obtain ⟨r, l'⟩ := q
      · cases r with
        | ok u => exact eofAll_fresh he hl
        | err e => cases h
        | panic => cases h

/-- C112 for the attributes of a structure: all of them are read together, and the value that they give is returned
if nothing is left in any of them but one comma. -/
theorem c112_attributes_partial {O : Type} {d : StructDef V} (ha : d.AttrAccepted) (hg : d.FieldsFine)
    (hc : ∀ f ∈ d.fields, Closed f.item)
    (hf : d.shape = .named → ∀ f ∈ d.fields, f.flatParsable = true → ∀ pre sp allowed, TidyL (f.flatCall pre sp allowed))
    (hu : d.shape = .unnamed → ∀ f ∈ d.fields, f.flatParsable = true → ∀ i, TidyL (f.flatUnnamed.parse .unnamed i))
    (attributes : List (List Str)) (h : HasAttrs O) (container : O → V) (o : O) {l : List Stream}
    (ho : Opened ((matching attributes (h.attrs o)).map Attr.entry) l) (v : List V) :
    (d.attrTarget attributes).parseAttributes h container o = .ok v ↔
      ∃ l', d.attrBody ⟨some (container o), attrLabel attributes (h.attrs o)⟩ (.named (attrSpan attributes (h.attrs o))) l =
        (.ok v, l') ∧ ∀ s ∈ l', AtEnd s.toks := by
  have hfun := func_eq (d.attrTarget attributes) (container o) (h.attrs o)
  have key := attributes_plainly (func := (d.attrTarget attributes).func (container o))
    (fun ps => StructDef.attrBody_tidy hg hc hf hu _ _)
    (fun ps l => AdvL.length (d.attrBody_good ha hg _ _ _ l).2) ho v
  rw [parseAttributes_eq]
  refine key.trans ?_
  have hfun : (d.attrTarget attributes).func (container o) (((matching attributes (h.attrs o)).map Attr.entry).map (·.2)) =
    _ := hfun
  rw [hfun]
  exact ⟨fun ⟨h1, h2⟩ => ⟨_, Prod.ext h1 rfl, h2⟩, fun ⟨_, h1, h2⟩ =>
    ⟨congrArg Prod.fst h1, fun s hs => h2 s (by
      have hs' := congrArg Prod.snd h1
      dsimp only at hs'
      rw [← hs']
      exact hs)⟩⟩

/-- C112 for the attributes of an enum. -/
theorem c112_enum_attributes_partial {O : Type} {e : EnumDef V} (ha : ∀ site, e.Accepted site) (hg : e.FieldsFine)
    (hn : e.Infallible) (hc : ∀ v ∈ e.variants, v.isSkipped = false → ∀ f ∈ v.fields, Closed f.item)
    (hf : ∀ v ∈ e.variants, v.isSkipped = false → v.shape = .named → ∀ f ∈ v.fields, f.flatParsable = true →
      ∀ pre sp allowed, TidyL (f.flatCall pre sp allowed))
    (hu : ∀ v ∈ e.variants, v.isSkipped = false → v.shape = .unnamed → ∀ f ∈ v.fields, f.flatParsable = true → ∀ i,
      TidyL (f.flatUnnamed.parse .unnamed i))
    (attributes : List (List Str)) (h : HasAttrs O) (container : O → V) (o : O) {l : List Stream}
    (ho : Opened ((matching attributes (h.attrs o)).map Attr.entry) l) (v : EnumVal V) :
    (e.attrTarget attributes).parseAttributes h container o = .ok v ↔
      ∃ l', e.attrBody ⟨some (container o), attrLabel attributes (h.attrs o)⟩ (.named (attrSpan attributes (h.attrs o))) l =
        (.ok v, l') ∧ ∀ s ∈ l', AtEnd s.toks := by
  have ht : ∀ site m, TidyL (e.attrBody site m) := fun site m => by
    refine enumFlat_tidy (fun v hv hs => ⟨fun hn => ?_, shapeTidy_of (fun f h => (hc v hv hs f h).tidy) (hf v hv hs)
      (hu v hv hs), fun _ f h _ _ => (hc v hv hs f h).tidy⟩) (fun v hv hs h => (ha site v hv hs).flatten h) site m [] _
    have hg := hg v hv hs
    exact ⟨fun f hf _ n sp => (hg.item f hf).named n sp, fun f hf => (hg.item f hf).missing, hg.flat hn⟩
  have hfun := func_eq (e.attrTarget attributes) (container o) (h.attrs o)
  have key := attributes_plainly (func := (e.attrTarget attributes).func (container o)) (fun ps => ht _ _)
    (fun ps l => AdvL.length (e.attrBody_good _ _ (ha _) hg hn _ l).2) ho v
  rw [parseAttributes_eq]
  refine key.trans ?_
  have hfun : (e.attrTarget attributes).func (container o) (((matching attributes (h.attrs o)).map Attr.entry).map (·.2)) =
    _ := hfun
  rw [hfun]
  exact ⟨fun ⟨h1, h2⟩ => ⟨_, Prod.ext h1 rfl, h2⟩, fun ⟨_, h1, h2⟩ =>
    ⟨congrArg Prod.fst h1, fun s hs => h2 s (by
      have hs' := congrArg Prod.snd h1
      dsimp only at hs'
      rw [← hs']
      exact hs)⟩⟩

/-- C112: a structure with a plain, a flattened and an appended field is such a type, … -/
theorem threeKinds_closed : Closed threeKinds.dict := by
  have fine : threeKinds.FieldsFine := by
    refine ⟨threeKinds_all.2 ⟨Dict.map_good _ boolDict_good, Dict.map_good _ boolDict_good, Dict.map_good _ boolDict_good⟩,
      fun _ => threeKinds_all.2 ⟨fun h => (by cases h), fun _ => ?_, fun _ _ _ _ => seqAppend_good boolDict_good.named _⟩,
      fun h => (by cases h)⟩
    refine fun pre span allowed => (twoNamed "p" "q").flatNamed_good ?_ rfl rfl twoNamed_fine _ _ _
    refine ⟨⟨fun f hf h => ?_, fun _ h => ?_⟩, fun h => ?_, fun h => ?_⟩
    · simp only [StructDef.data, twoNamed, List.mem_cons, List.not_mem_nil, or_false] at hf
      rcases hf with rfl | rfl <;> cases h
    · cases h
    · cases h
    · cases h
  exact .struct fine (threeKinds_all.2 ⟨.map _ .bool, .map _ .bool, .map _ .bool⟩)
    (fun _ f hf h pre sp allowed => (threeKinds_drain f hf h pre sp allowed).tidyL) (fun h => by cases h)

/-- … and so are lists and options of it. -/
example : Closed (seqDict (optionDict threeKinds.dict)) := .seq (.option threeKinds_closed)

/-- C112: `Punctuated<bool, Token![,]>` is such a type. -/
example : Closed (punctuatedDict boolDict (·.peekPunct ',') parseComma) := by
  refine .punctuated (fun s hs a ha => ?_) .bool
  simp only [parseComma, parsePunct] at ha ⊢
  split
  · split <;> exact ⟨hs, rfl⟩
  · exact ⟨hs, rfl⟩

/-- C112: an enum with flattened variants is such a type. -/
example : Closed demoEnum.dict := by
  have plain : ∀ v ∈ demoEnum.variants, ∀ f ∈ v.fields, f.flatParsable = false ∧ Closed f.item := by
    intro v hv f hf
    simp only [demoEnum, List.mem_cons, List.not_mem_nil, or_false] at hv
    rcases hv with rfl | rfl | rfl | rfl <;> simp only [boolVariant, List.mem_map] at hf <;> obtain ⟨x, _, rfl⟩ := hf <;>
      exact ⟨rfl, .bool⟩
  refine .enum demoEnum_fine.1 demoEnum_fine.2.1 (fun v hv _ f hf => (plain v hv f hf).2) ?_ ?_
  · intro v hv _ _ f hf h
    rw [(plain v hv f hf).1] at h
    cases h
  · intro v hv _ _ f hf h
    rw [(plain v hv f hf).1] at h
    cases h

/-- C112: `#[x(a)]` and `#[x]`. -/
example : Opened [([.group .paren [.ident ['a'] 3] 2 4], ['x'], 1), ([], ['x'], 5)]
    [⟨[.ident ['a'] 3], 4, none⟩, ⟨[], callSite, none⟩] := .list _ [] _ _ _ (.inl rfl) (.path _ .nil)

/-! ## What does not hold -/

/-- A structure with a field `u: ()`. -/
def unitField : StructDef Unit := ⟨.named, [plainField ['u'] unitDict], none, none, none, []⟩

/-- A structure with a field `u: ()` and a field `x: Vec<()>` that is appended to. -/
def unitAppend : StructDef (List Unit) :=
  ⟨.named, [plainField ['u'] (unitDict.map fun u => [u]),
    { plainField ['x'] (unitDict.map fun u => [u]) with append := some true, appendP := seqAppend unitDict }], none, none,
    none, []⟩

/-- `u = (..)`. -/
def unitItem (inner : List Tok) (sp : Span) : List Tok :=
  [.ident ['u'] sp, .punct '=' false (sp + 1), .group .paren inner (sp + 2) (sp + 3)]

/-- C112 is false for `()`: any tokens in the parentheses are read as a value, up to the end of the input, and then the
input is rejected. -/
theorem c112_unit_violated (t : Tok) (inner : List Tok) (sp : Span) :
    (∃ vs s, unitField.dict.inline (.named callSite) [⟨unitItem (t :: inner) sp, callSite, none⟩] = (.ok vs, [s]) ∧
      s.toks = []) ∧
    topParse2 unitField.dict (unitItem (t :: inner) sp) = .err (.new t.span .unexpectedToken) := by
  refine ⟨⟨_, _, rfl, rfl⟩, rfl⟩

/-- … but with an appended field besides, the same tokens are accepted: this structure reads its items from a copy of the
input, and what the copy notes is lost. -/
theorem c112_unit_accepted (t : Tok) (inner : List Tok) (sp : Span) :
    topParse2 unitAppend.dict (unitItem (t :: inner) sp) = .ok [[()], []] := rfl

/-- `enum E { A { u: () } }` -/
def unitEnum : EnumDef Unit where
  variants := [⟨['A'], .named, [plainField ['u'] unitDict], [['a']], none, none, none, none⟩]
  default := none
  allowUnknown := none
  andThens := []

/-- … and so they are in the fields of an enum. -/
theorem c112_unit_enum_accepted (t : Tok) (inner : List Tok) (sp : Span) :
    topParse2 unitEnum.dict [.ident ['a'] sp, .group .paren (unitItem (t :: inner) sp) sp sp] = .ok (0, [()]) := rfl

omit [Env] in
/-- C112 is false for the types of `syn` that are read from parentheses: whatever follows the value in them is left. -/
theorem c112_synParen_violated {α : Type} {p : M Stream α} {a : α} {v : List Tok} {t : Tok} {more : List Tok} {sc : Span}
    (hp : p ⟨v ++ t :: more, sc, none⟩ = (.ok a, ⟨t :: more, sc, none⟩)) (sp x : Span) (rest : List Tok) (out : Span) :
    (synParenDict p).parse (.named sp) ⟨.group .paren (v ++ t :: more) x sc :: rest, out, none⟩ =
      (.ok a, ⟨rest, out, some t.span⟩) := by
  simp [synParenDict, Dict.mk', withContent, enter, Bind.bind, M.bind, Pure.pure, M.pure, hp, parseNothing,
    Stream.dropChild]

end

end Deluxe
