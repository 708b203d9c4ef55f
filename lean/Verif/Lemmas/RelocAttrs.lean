import Verif.Lemmas.RelocEnum
/-!
# Attributes and the traits of transparent structures do not look at locations
-/
namespace Deluxe

variable {f : Span → Span} {V W : Type} {v : V → W}

/-! ## From attributes to streams -/

section
variable {α β : Type} {w : α → β}

/-- The closure of `parseTokens`. -/
def tokensFn {α : Type} (func : M Stream α) : M Stream (Errors × Option α) := fun stream =>
  match func stream with
  | (.panic, s') => (.panic, s')
  | (.ok a, s') =>
    match parseEof s' with
    | (.err e, s'') => (.ok (Errors.new.pushSyn e, some a), s'')
    | (_, s'') => (.ok (Errors.new, some a), s'')
  | (.err e, s') =>
    match parseEof s' with
    | (.err e', s'') => (.ok ((Errors.new.pushSyn e).pushSyn e', none), s'')
    | (_, s'') => (.ok (Errors.new.pushSyn e, none), s'')

/-- What `parseTokens` makes of the outcome. -/
def tokensOut {α : Type} : Res (Errors × Option α) → Res α
  | .ok (errors, ret) =>
    match errors.check with
    | .ok () => match ret with
      | some a => .ok a
      | none => .panic
    | .err e => .err e
    | .panic => .panic
  | .err e => .err e
  | .panic => .panic

theorem parseTokens_eq {α : Type} (toks : List Tok) (func : M Stream α) :
    parseTokens toks func = tokensOut (parse2 (tokensFn func) toks) := rfl

theorem parseTokens_reloc (hs : f callSite = callSite) {m : M Stream α} {m' : M Stream β} (h : RelocS f w m m')
    (toks : List Tok) : parseTokens (Tok.relocs f toks) m' = (parseTokens toks m).reloc f w := by
  have hf : RelocS f (Prod.map (Errors.reloc f) (Option.map w)) (tokensFn m) (tokensFn m') := by
    intro s
    simp only [tokensFn, h s]
    rcases m s with ⟨a | er | _, s'⟩
    · simp only [Res.reloc_ok, parseEof_reloc s']
      rcases parseEof s' with ⟨_ | _ | _, s''⟩ <;> rfl
    · simp only [Res.reloc_err, parseEof_reloc s']
      rcases parseEof s' with ⟨_ | e | _, s''⟩
      · rfl
      · simp only [Res.reloc_err, Res.reloc_ok, Prod.map_apply, ← Errors.reloc_pushSyn, Errors.reloc_new]
        rfl
      · rfl
    · rfl
  rw [parseTokens_eq, parseTokens_eq, parse2_reloc hs hf]
  rcases parse2 (tokensFn m) toks with ⟨errs, o⟩ | _ | _
  · simp only [Res.reloc_ok, Prod.map_apply, tokensOut, Errors.reloc_check]
    rcases errs.check with _ | _ | _
    · cases o <;> rfl
    · rfl
    · rfl
  · rfl
  · rfl

/-- The tokens of attributes with other locations. -/
abbrev relocTokens (f : Span → Span) (l : List (List Tok × Str × Span)) : List (List Tok × Str × Span) :=
  l.map fun x => (Tok.relocs f x.1, x.2.1, f x.2.2)

theorem parseNext_reloc (hs : f callSite = callSite) {func : List (Str × Span) → M (List Stream) α}
    {func' : List (Str × Span) → M (List Stream) β}
    (h : ∀ paths, RelocL f w (func paths) (func' (relocPaths f paths))) (attrs : List (List Tok × Str × Span))
    (paths : List (Str × Span)) :
    RelocL f w (parseNext func attrs paths) (parseNext func' (relocTokens f attrs) (relocPaths f paths)) := by
  induction attrs generalizing paths with
  | nil =>
    exact (h paths).bind fun a => RelocM.bind (v := id) eofAll_reloc fun _ => RelocM.pure rfl
  | cons x attrs ih =>
    obtain ⟨toks, name, span⟩ := x
    intro buffers
    have ep : relocPaths f paths ++ [(name, f span)] = relocPaths f (paths ++ [(name, span)]) := by
      simp only [relocPaths, List.map_append, List.map_cons, List.map_nil]
    have eb : ∀ s : Stream, buffers.map (Stream.reloc f) ++ [s.reloc f] = (buffers ++ [s]).map (Stream.reloc f) := by
      intro s
      simp only [List.map_append, List.map_cons, List.map_nil]
    simp only [relocTokens, List.map_cons, parseNext, ep]
    have ih' := ih (paths ++ [(name, span)])
    have key : ∀ s : Stream,
        (if (s.reloc f).isEmpty = true then
          ((parseNext func' (relocTokens f attrs) (relocPaths f (paths ++ [(name, span)]))
              (buffers.map (Stream.reloc f) ++ [(s.reloc f).fork])).1,
            (parseNext func' (relocTokens f attrs) (relocPaths f (paths ++ [(name, span)]))
              (buffers.map (Stream.reloc f) ++ [(s.reloc f).fork])).2.take (buffers.map (Stream.reloc f)).length, s.reloc f)
        else
          match enter .paren (s.reloc f) with
          | .error e => (.err e, buffers.map (Stream.reloc f), s.reloc f)
          | .ok (content, stream') =>
            ((parseNext func' (relocTokens f attrs) (relocPaths f (paths ++ [(name, span)]))
              (buffers.map (Stream.reloc f) ++ [content])).1,
             (parseNext func' (relocTokens f attrs) (relocPaths f (paths ++ [(name, span)]))
              (buffers.map (Stream.reloc f) ++ [content])).2.take (buffers.map (Stream.reloc f)).length,
             stream'.dropChild ((parseNext func' (relocTokens f attrs) (relocPaths f (paths ++ [(name, span)]))
              (buffers.map (Stream.reloc f) ++ [content])).2.getD (buffers.map (Stream.reloc f)).length content))) =
        Prod.map (Res.reloc f w) (Prod.map (List.map (Stream.reloc f)) (Stream.reloc f))
          (if s.isEmpty = true then
            ((parseNext func attrs (paths ++ [(name, span)]) (buffers ++ [s.fork])).1,
              (parseNext func attrs (paths ++ [(name, span)]) (buffers ++ [s.fork])).2.take buffers.length, s)
          else
            match enter .paren s with
            | .error e => (.err e, buffers, s)
            | .ok (content, stream') =>
              ((parseNext func attrs (paths ++ [(name, span)]) (buffers ++ [content])).1,
                (parseNext func attrs (paths ++ [(name, span)]) (buffers ++ [content])).2.take buffers.length,
                stream'.dropChild ((parseNext func attrs (paths ++ [(name, span)]) (buffers ++ [content])).2.getD
                  buffers.length content))) := by
      intro s
      simp only [Stream.reloc_isEmpty, Stream.reloc_fork, eb, List.length_map]
      split
      · rw [ih' (buffers ++ [s.fork])]
        simp only [Prod.map_apply, List.map_take]
      · rw [enter_reloc]
        rcases enter .paren s with e | ⟨content, stream'⟩
        · rfl
        · have eg : ∀ l : List Stream, (l.map (Stream.reloc f)).getD buffers.length (content.reloc f) =
              (l.getD buffers.length content).reloc f := by
            intro l
            simp only [List.getD_eq_getElem?_getD, List.getElem?_map]
            cases l[buffers.length]? <;> rfl
          simp only [Prod.map_apply, eb]
          rw [ih' (buffers ++ [content])]
          simp only [List.map_take, eg, Stream.reloc_dropChild]
    have e0 : (⟨Tok.relocs f toks, callSite, none⟩ : Stream) = Stream.reloc f ⟨toks, callSite, none⟩ := by
      simp [Stream.reloc, hs]
    refine Prod.ext ?_ ?_
    · refine parseTokens_reloc hs (fun s => ?_) toks
      exact (congrArg (fun x => (x.1, x.2.2)) (key s)).trans rfl
    · rw [e0]
      exact (congrArg (fun x => x.2.1) (key ⟨toks, callSite, none⟩)).trans rfl

theorem parseStructAttrTokens_reloc (hs : f callSite = callSite) {func : List (Str × Span) → M (List Stream) α}
    {func' : List (Str × Span) → M (List Stream) β}
    (h : ∀ paths, RelocL f w (func paths) (func' (relocPaths f paths))) (attrs : List (List Tok × Str × Span)) :
    parseStructAttrTokens (relocTokens f attrs) func' = (parseStructAttrTokens attrs func).reloc f w :=
  congrArg Prod.fst (parseNext_reloc hs h attrs [] [])

end

theorem Meta.reloc_tokens (hs : f callSite = callSite) (b : Meta) : (b.reloc f).tokens = Tok.relocs f b.tokens := by
  cases b <;> simp [Meta.reloc, Meta.tokens, Tok.reloc, hs]

theorem refTokens_reloc (hs : f callSite = callSite) {m : APath → Bool} (hm : ∀ p, m (p.reloc f) = m p)
    (attrs : List Attr) : refTokens m (attrs.map (Attr.reloc f)) = relocTokens f (refTokens m attrs) := by
  induction attrs with
  | nil => rfl
  | cons a attrs ih =>
    simp only [refTokens, relocTokens] at ih
    simp only [refTokens, List.map_cons, List.filterMap_cons, Attr.reloc, hm]
    cases m a.path with
    | false => exact ih
    | true =>
      simp only [if_true, relocTokens, List.map_cons, Meta.reloc_tokens hs]
      exact congrArg _ ih

theorem map_eraseIdx' {α β : Type} (g : α → β) (l : List α) (i : Nat) :
    (l.eraseIdx i).map g = (l.map g).eraseIdx i := by
  induction l generalizing i with
  | nil => rfl
  | cons a l ih =>
    cases i with
    | zero => rfl
    | succ i => exact congrArg _ (ih i)

theorem takeLoop_reloc (hs : f callSite = callSite) {m : APath → Bool} (hm : ∀ p, m (p.reloc f) = m p)
    (attrs : List Attr) (i : Nat) (tokens : List (List Tok × Str × Span)) :
    takeLoop m (attrs.map (Attr.reloc f)) i (relocTokens f tokens) =
      Prod.map (relocTokens f) (List.map (Attr.reloc f)) (takeLoop m attrs i tokens) := by
  fun_induction takeLoop m attrs i tokens with
  | case1 attrs i tokens h attr hp ih =>
    have e : relocTokens f (tokens ++ [(attr.body.tokens, attr.path.key, attr.path.span)]) =
        relocTokens f tokens ++ [((attr.reloc f).body.tokens, (attr.reloc f).path.key, (attr.reloc f).path.span)] := by
      simp only [relocTokens, List.map_append, List.map_cons, List.map_nil, Attr.reloc, Meta.reloc_tokens hs]
      rfl
    rw [e, map_eraseIdx'] at ih
    rw [takeLoop, dif_pos (by simpa using h)]
    have hg : (attrs.map (Attr.reloc f))[i]'(by simpa using h) = attr.reloc f := by simp [attr]
    have hp' : m (attr.reloc f).path = true := (hm attr.path).trans hp
    simp only [hg, hp', if_true]
    exact ih
  | case2 attrs i tokens h attr hp ih =>
    rw [takeLoop, dif_pos (by simpa using h)]
    have hg : (attrs.map (Attr.reloc f))[i]'(by simpa using h) = attr.reloc f := by simp [attr]
    have hp' : ¬ m (attr.reloc f).path = true := fun h => hp ((hm attr.path).symm.trans h)
    simp only [hg, hp']
    exact ih
  | case3 attrs i tokens h =>
    rw [takeLoop, dif_neg (by simpa using h)]
    rfl

theorem takeTokens_reloc (hs : f callSite = callSite) {m : APath → Bool} (hm : ∀ p, m (p.reloc f) = m p)
    (attrs : List Attr) : takeTokens m (attrs.map (Attr.reloc f)) =
      Prod.map (relocTokens f) (List.map (Attr.reloc f)) (takeTokens m attrs) :=
  takeLoop_reloc hs hm attrs 0 []

/-! ## The derives -/

theorem AttrTarget.matches_reloc {α : Type} (t : AttrTarget V α) (p : APath) : t.matches_ (p.reloc f) = t.matches_ p := rfl

theorem firstSpan_reloc (hs : f callSite = callSite) (l : List (Str × Span)) :
    firstSpan (relocPaths f l) = f (firstSpan l) := by
  cases l
  · exact hs.symm
  · rfl

theorem firstPathName_reloc (l : List (Str × Span)) : firstPathName (relocPaths f l) = firstPathName l := by
  cases l <;> rfl

section
variable {α β : Type} {w : α → β}

theorem AttrTarget.func_reloc (hs : f callSite = callSite) {t : AttrTarget V α} {t' : AttrTarget W β}
    (ht : t'.attributes = t.attributes)
    (hb : ∀ (site : Site V) (site' : Site W), site.Reloc v site' → ∀ m, RelocL f w (t.body site m) (t'.body site' (m.reloc f)))
    (obj : V) (paths : List (Str × Span)) :
    RelocL f w (t.func obj paths) (t'.func (v obj) (relocPaths f paths)) := by
  simp only [AttrTarget.func, firstPathName_reloc, ht, firstSpan_reloc hs]
  exact hb _ _ ⟨rfl, rfl⟩ (.named (firstSpan paths))
end

section
variable {d : StructDef V} {d' : StructDef W} (h : d.Reloc f v d') {site : Site V} {site' : Site W}
include h

theorem StructDef.Reloc.attrData (hc : f callSite = callSite) (hs : site.Reloc v site') :
    (d.attrData site).Reloc f v (d'.attrData site') where
  fields := h.fields
  target := h.default
  transparent := h.isTransparent
  allowUnknown := (h.data hc).allowUnknown
  obj := hs.obj
  attrName := hs.attrName
  emptySpan := (h.data hc).emptySpan

theorem attrTransparentPost_reloc (hc : f callSite = callSite) (hs : site.Reloc v site') (k : Nat) (r : Res V) :
    d'.attrTransparentPost site' k (r.reloc f v) = (d.attrTransparentPost site k r).reloc f (List.map v) := by
  cases r with
  | ok a =>
    have hz : ∀ {l : List (Field V)} {l' : List (Field W)}, All2 (Field.Reloc f v) l l' → ∀ sts : Slots V,
        List.zipWith (containerSet (d'.attrData site')) l' (relocSlots v sts) =
          relocSlots v (List.zipWith (containerSet (d.attrData site)) l sts) := by
      intro l
      induction l with
      | nil =>
        intro l' hl sts
        cases l' with
        | nil => rfl
        | cons b l' => exact hl.elim
      | cons a l ih =>
        intro l' hl sts
        cases l' with
        | nil => exact hl.elim
        | cons b l' =>
          cases sts with
          | nil => rfl
          | cons st sts =>
            have := ih hl.2 sts
            simp only [relocSlots] at this
            simp only [relocSlots, List.map_cons, List.zipWith_cons_cons, containerSet_reloc (h.attrData hc hs) hl.1,
              this]
    have e1 : (relocSlots v d.data.init).set k (.some (v a)) = relocSlots v (d.data.init.set k (.some a)) := by
      simp only [relocSlots, List.map_set]
      rfl
    simp only [StructDef.attrTransparentPost, Res.reloc_ok, (h.data hc).init, e1, hz h.fields]
    have hp := setPass_reloc h.fields
      (List.zipWith (containerSet (d.attrData site)) d.fields (d.data.init.set k (.some a))) Errors.new
    simp only [Errors.reloc_new] at hp
    rw [hp, finish_reloc (h.data hc), runAndThens_reloc h.andThens]
  | err e => rfl
  | panic => rfl

variable {E' E : Env} (R : Relocates E E' f)
include R

omit R in
theorem StructDef.Reloc.transparentField : OptRel (AtPos (Field.Reloc f v)) d.transparentField d'.transparentField :=
  (h.fields.zipIdx 0).find fun _ _ h => by simp only [h.1.isParsable, h.1.isFlat]

theorem StructDef.Reloc.attrBody (hs : site.Reloc v site') (m : Mode) :
    RelocL f (List.map v) (d.attrBody site m) (@StructDef.attrBody W E' d' site' (m.reloc f)) := by
  simp only [StructDef.attrBody, h.isTransparent, h.shape, fieldNames_reloc h.fields, h.acceptsAll]
  split
  · generalize ho : (d.fields.zipIdx.find? fun x => x.1.isParsable && !x.1.isFlat) = o
    generalize ho' : (d'.fields.zipIdx.find? fun x => x.1.isParsable && !x.1.isFlat) = o'
    have hr := (h.fields.zipIdx 0).find (p := fun x => x.1.isParsable && !x.1.isFlat)
      (q := fun x => x.1.isParsable && !x.1.isFlat) fun _ _ h => by simp only [h.1.isParsable, h.1.isFlat]
    rw [ho, ho'] at hr
    cases hr with
    | none => exact RelocM.panic
    | some hx =>
      rename_i a b
      obtain ⟨a, k⟩ := a
      obtain ⟨b, k'⟩ := b
      obtain ⟨hx, rfl⟩ := hx
      simp only at hx
      exact (hx.item.inline m).mapRes (attrTransparentPost_reloc h R.site hs k')
  · cases d.shape with
    | named => exact (namedFlat_reloc (h.attrData R.site hs) R _ m [] _).mapRes (runAndThens_reloc h.andThens)
    | unnamed => exact (unnamedFlat_reloc (h.attrData R.site hs) R m 0).mapRes (runAndThens_reloc h.andThens)
    | unit =>
      intro l
      simp only [eofAll_reloc (f := f) l]
      rcases eofAll l with ⟨_ | _ | _, l'⟩
      · exact congrArg (·, _) (runAndThens_reloc h.andThens (.ok []))
      · rfl
      · rfl

theorem StructDef.Reloc.implFlatNamed (o : TransparentOpts) :
    OptRel (FlatNamed.Reloc f (List.map v)) (d.implFlatNamed o) (@StructDef.implFlatNamed W E' d' o) := by
  simp only [StructDef.implFlatNamed, h.isTransparent, h.shape]
  split
  · split
    · have hr := h.transparentField
      generalize d.transparentField = x at hr
      generalize d'.transparentField = y at hr
      cases hr with
      | none => exact .none
      | some hx =>
        refine .some ⟨hx.1.flatNamed.acceptsAll, hx.1.flatNamed.fieldNames, fun m p b => ?_⟩
        simp only [hx.2]
        exact (hx.1.flatNamed.parse m p b).mapRes (transparentPost_reloc h R.site _)
    · exact .none
  · cases d.shape with
    | named => exact .some (h.flatNamed R)
    | unnamed => exact .none
    | unit => exact .none

theorem StructDef.Reloc.implFlatUnnamed (o : TransparentOpts) :
    OptRel (FlatUnnamed.Reloc f (List.map v)) (d.implFlatUnnamed o) (@StructDef.implFlatUnnamed W E' d' o) := by
  simp only [StructDef.implFlatUnnamed, h.isTransparent, h.shape]
  split
  · split
    · have hr := h.transparentField
      generalize d.transparentField = x at hr
      generalize d'.transparentField = y at hr
      cases hr with
      | none => exact .none
      | some hx =>
        refine .some ⟨hx.1.flatUnnamed.fieldCount, fun m i => ?_⟩
        simp only [hx.2]
        exact (hx.1.flatUnnamed.parse m _).mapRes (transparentPost_reloc h R.site _)
    · exact .none
  · cases d.shape with
    | named => exact .some (h.flatUnnamed R)
    | unnamed => exact .some (h.flatUnnamed R)
    | unit => exact .none

omit R in
theorem StructDef.Reloc.implRest (hc : f callSite = callSite) (o : TransparentOpts) :
    OptRel (fun (p : Rest (List V)) (q : Rest (List W)) => ∀ ex, RelocL f (List.map v) (p ex) (q ex)) (d.implRest o)
      (d'.implRest o) := by
  simp only [StructDef.implRest, h.isTransparent]
  split
  · have hr := h.transparentField
    generalize d.transparentField = x at hr
    generalize d'.transparentField = y at hr
    cases hr with
    | none => exact .none
    | some hx =>
      refine .some fun ex => ?_
      simp only [hx.2]
      exact (hx.1.restP ex).mapRes (transparentPost_reloc h hc _)
  · exact .none

omit R in
theorem StructDef.Reloc.implAppend (hc : f callSite = callSite) (o : TransparentOpts) :
    OptRel (fun (p : Append (List V)) (q : Append (List W)) => ∀ ps, RelocL f (List.map v) (p ps) (q ps))
      (d.implAppend o) (d'.implAppend o) := by
  simp only [StructDef.implAppend, h.isTransparent]
  split
  · have hr := h.transparentField
    generalize d.transparentField = x at hr
    generalize d'.transparentField = y at hr
    cases hr with
    | none => exact .none
    | some hx =>
      refine .some fun ex => ?_
      simp only [hx.2]
      exact (hx.1.appendP ex).mapRes (transparentPost_reloc h hc _)
  · exact .none

end

theorem EnumDef.Reloc.attrBody {e : EnumDef V} {e' : EnumDef W} (h : e.Reloc f v e') {E' E : Env}
    (R : Relocates E E' f) {site : Site V} {site' : Site W} (hs : site.Reloc v site') (m : Mode) :
    RelocL f (relocEnumVal v) (e.attrBody site m) (@EnumDef.attrBody W E' e' site' (m.reloc f)) := by
  simp only [EnumDef.attrBody, h.acceptsAll]
  exact enumFlat_reloc h R hs m [] _

end Deluxe
