import Verif.Lemmas.Agree
import Verif.Props.EnumAttrs
import Verif.Props.With
import Verif.Props.Loops
import Verif.Model.Top
/-!
# C98: the arguments of an attribute macro are read like one attribute of a derive
-/
namespace Deluxe

section
variable {V α O : Type} [Env]

/-! ## One attribute -/

omit [Env] in
/-- One attribute with a parenthesised list is read as the tokens of its list, up to one comma at the end. -/
theorem oneAttr_ok (t : AttrTarget V α) (h : HasAttrs O) (container : O → V) (o : O)
    (hb : ∀ x n mode l, (t.body ⟨some x, n⟩ mode l).2.length = l.length) {p : APath} {toks : List Tok}
    (hm : matching t.attributes (h.attrs o) = [⟨p, .list .paren toks⟩]) (v : α) :
    t.parseAttributes h container o = .ok v ↔
      ∃ s', t.body ⟨some (container o), some p.key⟩ (.named p.span) [⟨toks, callSite, none⟩] = (.ok v, [s']) ∧
        AtEnd s'.toks ∧ s'.unexp = none := by
  have hlabel : attrLabel t.attributes (h.attrs o) = some p.key := by simp [attrLabel, hm]
  have hspan : attrSpan t.attributes (h.attrs o) = p.span := by simp [attrSpan, hm]
  have hfun := func_eq t (container o) (h.attrs o)
  rw [hlabel, hspan, hm] at hfun
  have hl : ∀ ps l, (t.func (container o) ps l).2.length = l.length := fun ps l => hb _ _ _ l
  rw [parseAttributes_eq, hm, c19_attr_tokens _ _ hl, hfun]
  constructor
  · rintro ⟨ss, ss', h1, h2⟩
    cases h1 with
    | @group _ _ _ _ _ _ _ s' ss' hr ha hu h1 =>
      cases h1
      exact ⟨s', h2, ha, hu⟩
  · rintro ⟨s', h1, h2, h3⟩
    exact ⟨_, _, .group (.inl rfl) h2 h3 .nil, h1⟩

omit [Env] in
/-- The arguments of an attribute macro are read as one stream, without anything left. -/
theorem topParse2_ok (d : Dict α) (toks : List Tok)
    (hb : ∀ l, (d.inline (.named callSite) l).2.length = l.length) (v : α) :
    topParse2 d toks = .ok v ↔
      ∃ s', d.inline (.named callSite) [⟨toks, callSite, none⟩] = (.ok v, [s']) ∧ s'.toks = [] ∧ s'.unexp = none := by
  rw [topParse2, parse2_ok]
  have := hb [⟨toks, callSite, none⟩]
  unfold single
  generalize d.inline (.named callSite) [⟨toks, callSite, none⟩] = q at this ⊢
  obtain ⟨r, l⟩ := q
  match l, this with
  | [s], _ => simp

/-! ## Structures -/

omit [Env] in
theorem StructDef.Accepted.attr {d : StructDef V} (h : d.Accepted) : d.AttrAccepted := by
  refine ⟨fun f hf hp => ?_, h.fields.target, h.transparent, h.tuple⟩
  rcases h.fields.filled f hf hp with h | h | h
  · exact .inl h
  · exact .inr (.inl h)
  · exact .inr (.inr h.1)

omit [Env] in
theorem M.Alike.mapRes {σ β γ : Type} {m m' : M σ β} (h : m.Alike m') {g g' : Res β → Res γ}
    (hg : ∀ r r', Res.Same r r' → Res.Same (g r) (g' r')) : (m.mapRes g).Alike (m'.mapRes g') := fun s =>
  ⟨hg _ _ (h s).1, (h s).2⟩

omit [Env] in
theorem runAndThens_alike {β : Type} (fs : List (β → Except SynErr β)) {r r' : Res β} (h : Res.Same r r') :
    Res.Same (runAndThens fs r) (runAndThens fs r') := by
  cases h with
  | ok h => rw [h]; exact .refl _
  | err => exact .err
  | panic => exact .panic

/-- The label, the object and the place do not change the value of a structure, nor what is left. -/
theorem StructDef.body_alike {d : StructDef V} (hn : NoContainer d.fields) (hp : Placeless d.fields)
    (hi : d.isTransparent = true → ∀ f ∈ d.fields, ∀ m m', (f.item.inline m).Alike (f.item.inline m'))
    (hu : d.isTransparent = false → d.shape ≠ .unit) (site : Site V) (mode mode' : Mode) :
    (d.dict.inline mode).Alike (d.attrBody site mode') := by
  have hf : SameFields d.data (d.attrData site) := ⟨rfl, rfl, rfl, rfl⟩
  unfold StructDef.dict StructDef.attrBody
  cases ht : d.isTransparent with
  | true =>
    simp only [if_true]
    cases hz : d.fields.zipIdx.find? fun x => x.1.isParsable && !x.1.isFlat with
    | none =>
      simp only [Dict.mk']
      intro l
      cases l <;> exact ⟨.panic, rfl⟩
    | some x =>
      obtain ⟨f, k⟩ := x
      have hmem := List.fst_mem_of_mem_zipIdx (List.mem_of_find?_eq_some hz)
      refine M.Alike.mapRes (hi ht f hmem mode mode') fun r r' h => ?_
      cases h with
      | @ok v v' h =>
        subst h
        have hl : (d.data.init.set k (.some v)).length = d.fields.length := by simp [Fields.init, StructDef.data]
        simp only [transparentPost, StructDef.attrTransparentPost, zipWith_noContainer _ _ hn hl]
        exact .refl _
      | err => exact .err
      | panic => exact .panic
  | false =>
    simp only [Bool.false_eq_true, if_false]
    cases hs : d.shape with
    | unit => exact absurd hs (hu ht)
    | named =>
      simp only [Dict.mk', StructDef.flatNamed]
      exact M.Alike.mapRes (fun l => namedFlat_alike hf hn hp _ _ _ _ _ l) fun _ _ h => runAndThens_alike _ h
    | unnamed =>
      simp only [Dict.mk', StructDef.flatUnnamed, hs]
      exact M.Alike.mapRes (fun l => unnamedFlat_alike hf rfl hn hp _ _ _ l) fun _ _ h => runAndThens_alike _ h

omit [Env] in
theorem M.Alike.ok_iff {σ β : Type} {m m' : M σ β} (h : m.Alike m') {s s' : σ} {v : β} :
    m s = (.ok v, s') ↔ m' s = (.ok v, s') := by
  obtain ⟨h1, h2⟩ := h s
  have := h1.ok_iff v
  constructor
  · intro h
    rw [h] at this h2
    exact Prod.ext (this.1 rfl) h2.symm
  · intro h
    rw [h] at this h2
    exact Prod.ext (this.2 rfl) h2

/-- C98, one direction: what `deluxe::parse` accepts as a structure, the attribute derive of the same structure accepts
as one attribute, with the same value.  (The other direction fails for a comma at the end, see
`c98_trailing_comma_violated`; it holds for named fields, see `c98_named`.) -/
theorem c98_struct_partial {d : StructDef V} (ha : d.Accepted) (hg : d.FieldsFine) (hn : NoContainer d.fields)
    (hp : Placeless d.fields)
    (hi : d.isTransparent = true → ∀ f ∈ d.fields, ∀ m m', (f.item.inline m).Alike (f.item.inline m'))
    (attributes : List (List Str)) (h : HasAttrs O) (container : O → V) (o : O) {p : APath} {toks : List Tok}
    (hm : matching attributes (h.attrs o) = [⟨p, .list .paren toks⟩]) {v : List V}
    (hv : topParse2 d.dict toks = .ok v) : (d.attrTarget attributes).parseAttributes h container o = .ok v := by
  rw [topParse2_ok _ _ fun l => AdvL.length ((d.dict_good ha hg).inline _ l).2] at hv
  obtain ⟨s', h1, h2, h3⟩ := hv
  rw [oneAttr_ok (d.attrTarget attributes) h container o
    (fun x n mode l => AdvL.length (d.attrBody_good ha.attr hg x n mode l).2) hm]
  by_cases hu : d.isTransparent = false ∧ d.shape = .unit
  · have : d.dict.inline (.named callSite) [⟨toks, callSite, none⟩] =
        (runAndThens d.andThens (.ok []), [⟨toks, callSite, none⟩]) := by
      simp only [StructDef.dict, hu.1, hu.2, Bool.false_eq_true, if_false, Dict.mk']
    rw [this] at h1
    simp only [Prod.mk.injEq, List.cons.injEq, and_true] at h1
    obtain ⟨h1, rfl⟩ := h1
    simp only at h2
    subst h2
    refine ⟨⟨[], callSite, none⟩, ?_, .inl rfl, rfl⟩
    show d.attrBody _ _ _ = _
    unfold StructDef.attrBody
    rw [if_neg (by simp [hu.1]), hu.2]
    simp only
    rw [(eofAll_ok _ [⟨[], callSite, none⟩]).2 ⟨by simp [AtEnd], rfl⟩]
    simp only [h1]
  · exact ⟨s', (d.body_alike hn hp hi (fun h1 h2 => hu ⟨h1, h2⟩) _ _ _).ok_iff.1 h1, .inl h2, h3⟩

/-- C98, exactly: a structure that is not a unit is read with the same value from an attribute and from the arguments
of an attribute macro, except where its parser leaves one comma unread: that is accepted in an attribute only. -/
theorem c98_struct {d : StructDef V} (ha : d.Accepted) (hg : d.FieldsFine) (hn : NoContainer d.fields)
    (hp : Placeless d.fields)
    (hi : d.isTransparent = true → ∀ f ∈ d.fields, ∀ m m', (f.item.inline m).Alike (f.item.inline m'))
    (hu : d.isTransparent = false → d.shape ≠ .unit)
    (attributes : List (List Str)) (h : HasAttrs O) (container : O → V) (o : O) {p : APath} {toks : List Tok}
    (hm : matching attributes (h.attrs o) = [⟨p, .list .paren toks⟩]) (v : List V) :
    (d.attrTarget attributes).parseAttributes h container o = .ok v ↔
      topParse2 d.dict toks = .ok v ∨ ∃ c sc, Comma c ∧
        d.dict.inline (.named callSite) [⟨toks, callSite, none⟩] = (.ok v, [⟨[c], sc, none⟩]) := by
  rw [topParse2_ok _ _ fun l => AdvL.length ((d.dict_good ha hg).inline _ l).2,
    oneAttr_ok (d.attrTarget attributes) h container o
    (fun x n mode l => AdvL.length (d.attrBody_good ha.attr hg x n mode l).2) hm]
  have hb := fun s => (d.body_alike hn hp hi hu ⟨some (container o), some p.key⟩ (.named callSite) (.named p.span)).ok_iff
    (s := [⟨toks, callSite, none⟩]) (s' := [s]) (v := v)
  constructor
  · rintro ⟨s', h1, h2 | ⟨c, hc, h2⟩, h3⟩
    · exact .inl ⟨s', (hb s').2 h1, h2, h3⟩
    · obtain ⟨ts, sc, u⟩ := s'
      simp only at h2 h3
      subst h2 h3
      exact .inr ⟨c, sc, hc, (hb _).2 h1⟩
  · rintro (⟨s', h1, h2, h3⟩ | ⟨c, sc, hc, h1⟩)
    · exact ⟨s', (hb s').1 h1, .inl h2, h3⟩
    · exact ⟨_, (hb _).1 h1, .inr ⟨c, hc, rfl⟩, rfl⟩

/-! ## Named fields leave nothing -/

/-- The flattened fields, if they succeed, read everything. -/
def FlatEnds (fields : List (Field V)) : Prop :=
  ∀ f ∈ fields, f.flatParsable = true → ∀ pre sp allowed l v l', f.flatCall pre sp allowed l = (.ok v, l') →
    ∀ s ∈ l', s.toks = []

omit [Env] in
theorem flatPass_left (pre : Str) (sp : Span) (allowed : List Str) (fs : List (Field V))
    (hg : ∀ f ∈ fs, f.flatParsable = true → Good (f.flatCall pre sp allowed))
    (he : FlatEnds fs) (hany : fs.any (·.flatParsable) = true) (sts : Slots V) (hl : sts.length = fs.length)
    (errs : Errors) (l : List Stream) {slots errs' l'}
    (h : flatPass pre sp allowed fs sts errs l = (.ok (slots, errs'), l')) (h0 : errs'.toList = []) :
    ∀ s ∈ l', s.toks = [] := by
  induction fs generalizing sts errs slots errs' l' with
  | nil => simp at hany
  | cons f fs ih =>
    cases sts with
    | nil => simp at hl
    | cons st sts =>
      have hl' : sts.length = fs.length := by simpa using hl
      have hg' : ∀ g ∈ fs, g.flatParsable = true → Good (g.flatCall pre sp allowed) := fun g hm => hg g (by simp [hm])
      have he' : FlatEnds fs := fun g hm => he g (by simp [hm])
      -- the outcome of the other fields
      have rest : ∀ errs l0 l' slots errs' (g : FieldStatus V), fs.any (·.flatParsable) = true → l0 = l →
          ((flatPass pre sp allowed fs sts errs l0).1.map fun x => (g :: x.1, x.2),
            (flatPass pre sp allowed fs sts errs l0).2) = (.ok (slots, errs'), l') → errs'.toList = [] →
          ∀ s ∈ l', s.toks = [] := by
        intro errs l0 l' slots errs' g ha hl0 hh hh0
        subst hl0
        cases hq : flatPass pre sp allowed fs sts errs l0 with
        | mk r l1 =>
          rw [hq] at hh
          cases r with
          | ok x =>
            simp only [Res.map, Prod.mk.injEq, Res.ok.injEq] at hh
            obtain ⟨⟨_, rfl⟩, rfl⟩ := hh
            exact ih hg' he' ha sts hl' errs hq hh0
          | err e => simp [Res.map] at hh
          | panic => simp [Res.map] at hh
      by_cases hp : f.flatParsable = true
      · by_cases ha : fs.any (·.flatParsable) = true
        · simp only [flatPass, hp, ha, if_true] at h
          cases hx : (f.flatCall pre sp allowed (forkInputs l)).1 with
          | panic => rw [hx] at h; simp at h
          | ok v => rw [hx] at h; exact rest _ _ _ _ _ _ ha rfl h h0
          | err e => rw [hx] at h; exact rest _ _ _ _ _ _ ha rfl h h0
        · have ha' : fs.any (·.flatParsable) = false := by simpa using ha
          simp only [flatPass, hp, ha', if_true, Bool.false_eq_true, if_false] at h
          cases hx : f.flatCall pre sp allowed l with
          | mk r l1 =>
            rw [hx] at h
            cases r with
            | panic => simp at h
            | ok v =>
              simp only [flatPass_none ha' pre sp allowed sts hl', Res.map, Prod.mk.injEq] at h
              rw [← h.2]
              exact he f (by simp) hp pre sp allowed l v l1 hx
            | err e =>
              simp only [flatPass_none ha' pre sp allowed sts hl', Res.map, Prod.mk.injEq, Res.ok.injEq] at h
              rw [← h.1.2] at h0
              simp [Errors.toList_pushSyn, SynErr.toList] at h0
      · have hp' : f.flatParsable = false := by simpa using hp
        have ha : fs.any (·.flatParsable) = true := by simpa [hp'] using hany
        simp only [flatPass, hp', Bool.false_eq_true, if_false] at h
        exact rest _ _ _ _ _ _ ha rfl h h0

omit [Env] in
theorem finish_ok_errs {d : Fields V} {slots : Slots V} {errs : Errors} {v : List V}
    (h : finish d slots errs = .ok v) : errs.toList = [] := by
  cases hx : errs.toList with
  | nil => rfl
  | cons m ms =>
    have := (finish_eq d slots errs).1 (by rw [hx]; simp)
    rw [h] at this
    obtain ⟨e, h9, _⟩ := this
    simp at h9

/-- A structure with named fields that is read leaves nothing. -/
theorem namedFlat_left (d : Fields V) (hg : FieldsGood d.fields) (he : FlatEnds d.fields) (allowed : List Str)
    (mode : Mode) (pre : Str) (validate : Bool) {l l' : List Stream} {v : List V}
    (h : namedFlat d allowed mode pre validate l = (.ok v, l')) : ∀ s ∈ l', s.toks = [] := by
  obtain ⟨rs, fatal, l1, hr⟩ := ReadsAll.exists (structItem_good hg.named pre)
    (if d.fields.any (·.flatParsable) then forkInputs l else l)
  obtain ⟨e0, h1, h2⟩ := parseStruct_reads d hg.named allowed pre validate hr
  have hlen : (itemSlots d.fields.length (rs.map (·.1))).length = d.fields.length := by simp [itemSlots]
  rw [namedFlat_eq, h1] at h
  -- the end of the parser
  have tail : ∀ errs l2, namedTail d allowed pre (mode.toFullSpan l) (itemSlots d.fields.length (rs.map (·.1))) errs l2 =
      (.ok v, l') → errs.toList = [] ∧ (d.fields.any (·.flatParsable) = false → l' = l2) ∧
        (d.fields.any (·.flatParsable) = true → ∀ s ∈ l', s.toks = []) := by
    intro errs l2 ht
    obtain ⟨e2, l3, h3, h4, h5⟩ := flatPass_eq pre (mode.toFullSpan l) allowed d.fields
      (fun f hf hp => hg.flat f hf hp _ _ _) _ hlen errs l2
    simp only [namedTail, h3, Prod.mk.injEq] at ht
    obtain ⟨ht, rfl⟩ := ht
    obtain ⟨e3, h6, h7⟩ := postNamed_eq d hg.missing pre (mode.toFullSpan l) _ e2
    rw [h6] at ht
    have h8 := finish_ok_errs ht
    rw [h8] at h7
    have h9 : e2.toList = [] := by
      have := h7.symm
      simp only [List.append_eq_nil_iff] at this
      exact this.1.1
    refine ⟨?_, ?_, ?_⟩
    · have := h4.symm.trans h9
      simp only [List.append_eq_nil_iff] at this
      exact this.1
    · intro ha
      rw [flatPass_none ha pre (mode.toFullSpan l) allowed _ hlen errs l2] at h3
      simp only [Prod.mk.injEq] at h3
      exact h3.2.symm
    · intro ha
      exact flatPass_left pre _ allowed d.fields (fun f hf hp => hg.flat f hf hp _ _ _) he ha _ hlen errs l2 h3 h9
  cases ha : d.fields.any (·.flatParsable) with
  | true =>
    cases fatal with
    | none => exact (tail _ _ h).2.2 ha
    | some e => exact (tail _ _ h).2.2 ha
  | false =>
    rw [ha] at h h1
    cases fatal with
    | none =>
      have := (tail _ _ h).2.1 ha
      simp only [Bool.false_eq_true, if_false] at this h1
      rw [this]
      exact c08_consumes_all _ _ _ _ _ h1
    | some e =>
      have := (tail _ _ h).1
      simp [Errors.toList_pushSyn, SynErr.toList] at this

/-- C98: a structure with named fields is read with the same value from an attribute and from the arguments of an
attribute macro. -/
theorem c98_named {d : StructDef V} (ha : d.Accepted) (hg : d.FieldsFine) (hs : d.shape = .named)
    (ht : d.isTransparent = false) (hn : NoContainer d.fields) (hp : Placeless d.fields) (he : FlatEnds d.fields)
    (attributes : List (List Str)) (h : HasAttrs O) (container : O → V) (o : O) {p : APath} {toks : List Tok}
    (hm : matching attributes (h.attrs o) = [⟨p, .list .paren toks⟩]) (v : List V) :
    (d.attrTarget attributes).parseAttributes h container o = .ok v ↔ topParse2 d.dict toks = .ok v := by
  rw [c98_struct ha hg hn hp (by simp [ht]) (by simp [hs]) attributes h container o hm]
  refine ⟨?_, .inl⟩
  rintro (h1 | ⟨c, sc, hc, h1⟩)
  · exact h1
  · simp only [StructDef.dict, ht, hs, Bool.false_eq_true, if_false, Dict.mk', StructDef.flatNamed, M.mapRes,
      Prod.mk.injEq] at h1
    obtain ⟨h1, h2⟩ := h1
    rw [runAndThens_ok] at h1
    obtain ⟨w, h1, _⟩ := h1
    have := namedFlat_left d.data ⟨fun f hf _ n sp => (hg.item f hf).named n sp,
      fun f hf n sp => (hg.item f hf).missing n sp, hg.flat hs⟩ he _ _ _ _ (Prod.ext h1 h2) ⟨[c], sc, none⟩ (by simp)
    simp at this

/-- C98: a unit structure is read from an attribute if it is empty or has one comma, from the arguments of an attribute
macro only if there are none; the value is the same. -/
theorem c98_unit {d : StructDef V} (ha : d.Accepted) (hg : d.FieldsFine) (hs : d.shape = .unit)
    (ht : d.isTransparent = false)
    (attributes : List (List Str)) (h : HasAttrs O) (container : O → V) (o : O) {p : APath} {toks : List Tok}
    (hm : matching attributes (h.attrs o) = [⟨p, .list .paren toks⟩]) (v : List V) :
    ((d.attrTarget attributes).parseAttributes h container o = .ok v ↔
      AtEnd toks ∧ d.andThens.foldlM (fun v f => f v) [] = .ok v) ∧
    (topParse2 d.dict toks = .ok v ↔ toks = [] ∧ d.andThens.foldlM (fun v f => f v) [] = .ok v) := by
  have hin : d.dict.inline (.named callSite) [⟨toks, callSite, none⟩] =
      (runAndThens d.andThens (.ok []), [⟨toks, callSite, none⟩]) := by
    simp only [StructDef.dict, ht, hs, Bool.false_eq_true, if_false, Dict.mk']
  constructor
  · rw [oneAttr_ok (d.attrTarget attributes) h container o
      (fun x n mode l => AdvL.length (d.attrBody_good ha.attr hg x n mode l).2) hm]
    show (∃ s', d.attrBody _ _ _ = _ ∧ _) ↔ _
    unfold StructDef.attrBody
    rw [if_neg (by simp [ht]), hs]
    simp only
    constructor
    · rintro ⟨s', h1, h2, h3⟩
      split at h1
      · rename_i l' heq
        rw [eofAll_ok] at heq
        simp only [Prod.mk.injEq] at h1
        obtain ⟨w, hw, h1⟩ := (runAndThens_ok _ _ _).1 h1.1
        cases hw
        exact ⟨heq.1 ⟨toks, callSite, none⟩ (by simp), h1⟩
      · simp at h1
      · simp at h1
    · rintro ⟨h1, h2⟩
      refine ⟨⟨[], callSite, none⟩, ?_, .inl rfl, rfl⟩
      rw [(eofAll_ok _ [⟨[], callSite, none⟩]).2 ⟨by simpa using h1, rfl⟩]
      show (runAndThens d.andThens (.ok []), _) = _
      rw [(runAndThens_ok _ _ _).2 ⟨_, rfl, h2⟩]
  · rw [topParse2_ok _ _ fun l => AdvL.length ((d.dict_good ha hg).inline _ l).2, hin]
    constructor
    · rintro ⟨s', h1, h2, h3⟩
      simp only [Prod.mk.injEq, List.cons.injEq, and_true] at h1
      obtain ⟨h1, rfl⟩ := h1
      obtain ⟨w, hw, h1⟩ := (runAndThens_ok _ _ _).1 h1
      cases hw
      exact ⟨h2, h1⟩
    · rintro ⟨h1, h2⟩
      exact ⟨_, by rw [(runAndThens_ok _ _ _).2 ⟨_, rfl, h2⟩], h1, rfl⟩

/-! ## Enums -/

theorem validate_irrelevant {e : EnumDef V} (hu : e.unknownOk = true) (site : Site V) (mode : Mode) (pre : Str)
    (b b' : Bool) : enumFlat e site mode pre b = enumFlat e site mode pre b' := by
  have hv : ∀ b errs l, validatePass e b errs l = (.ok errs, l) := by
    intro b errs l
    simp [validatePass, hu]
  have hp : ∀ span st errs l, pick e site pre span b st errs l = pick e site pre span b' st errs l := by
    intro span st errs l
    simp only [pick, pickFlat, hv, hu, Bool.not_true, Bool.and_false, Bool.false_and]
  funext l
  simp only [enumFlat, hp]

omit [Env] in
theorem skipAll_left (l : List Stream) : ∀ s ∈ skipAll l, s.toks = [] := by
  induction l with
  | nil => simp [skipAll]
  | cons s l ih =>
    intro x hx
    simp only [skipAll, List.map_cons, List.mem_cons] at hx
    rcases hx with rfl | hx
    · rfl
    · exact ih x hx

/-- An enum that is read leaves nothing. -/
theorem enumFlat_left (e : EnumDef V) (site : Site V) (mode : Mode) (pre : Str) (validate : Bool) {l l' : List Stream}
    {v : EnumVal V} (h : enumFlat e site mode pre validate l = (.ok v, l')) : ∀ s ∈ l', s.toks = [] := by
  rw [enumFlat_tail] at h
  have tail : ∀ st errs l1, enumTail e site pre (mode.toFullSpan l) validate st errs l1 = (.ok v, l') →
      ∀ s ∈ l', s.toks = [] := by
    intro st errs l1 h
    unfold enumTail at h
    split at h
    · simp only [Prod.mk.injEq] at h
      rw [← h.2]
      exact skipAll_left _
    · simp at h
    · simp at h
  simp only at h
  split at h
  · simp at h
  · exact tail _ _ _ h
  · exact tail _ _ _ h

/-- C98: an enum without flattened variant that takes any key is read with the same value from an attribute and from
the arguments of an attribute macro.  (With such a variant the attribute accepts more, see C89.) -/
theorem c98_enum {e : EnumDef V} (ha : ∀ site, e.Accepted site) (hg : e.FieldsFine) (hn : e.Infallible)
    (hc : ∀ v ∈ e.variants, NoContainer v.fields) (hp : ∀ v ∈ e.variants, Placeless v.fields)
    (ht : ¬ e.SomeTakesAny)
    (attributes : List (List Str)) (h : HasAttrs O) (container : O → V) (o : O) {p : APath} {toks : List Tok}
    (hm : matching attributes (h.attrs o) = [⟨p, .list .paren toks⟩]) (v : EnumVal V) :
    (e.attrTarget attributes).parseAttributes h container o = .ok v ↔ topParse2 e.dict toks = .ok v := by
  rw [topParse2_ok _ _ fun l => AdvL.length ((e.dict_good (ha _) hg hn).inline _ l).2,
    oneAttr_ok (e.attrTarget attributes) h container o
    (fun x n mode l => AdvL.length (e.attrBody_good x n (ha _) hg hn mode l).2) hm]
  have hv : ∀ site mode, enumFlat e site mode [] (!e.acceptsAll) = enumFlat e site mode [] true := by
    intro site mode
    cases hu : e.unknownOk with
    | true => exact validate_irrelevant hu _ _ _ _ _
    | false =>
      have : e.acceptsAll = false := by
        cases hx : e.acceptsAll with
        | false => rfl
        | true =>
          refine absurd ?_ ht
          simp only [EnumDef.acceptsAll, hu, Bool.false_or, Bool.or_eq_true, List.any_eq_true, Bool.and_eq_true,
            Bool.not_eq_true'] at hx
          rcases hx with ⟨v, hv, ⟨h1, h2⟩, h3⟩ | ⟨v, hv, h1, h2⟩
          · refine ⟨v, hv, h2, .inl ⟨h1, ?_⟩⟩
            cases ho : v.allowUnknown with
            | none => rw [ho] at h3; cases h3
            | some b => rw [ho] at h3; simp only [Option.getD_some] at h3; rw [h3]
          · exact ⟨v, hv, h1, .inr h2⟩
      rw [this]; rfl
  have hb : (e.dict.inline (.named callSite)).Alike ((e.attrTarget attributes).body ⟨some (container o), some p.key⟩
      (.named p.span)) := by
    show (enumFlat e .meta (.named callSite) [] true).Alike (enumFlat e _ _ [] (!e.acceptsAll))
    rw [hv]
    exact enumFlat_alike hc hp _ _ _ _ _ _
  constructor
  · rintro ⟨s', h1, h2, h3⟩
    exact ⟨s', hb.ok_iff.2 h1, enumFlat_left e _ _ _ _ h1 s' (by simp), h3⟩
  · rintro ⟨s', h1, h2, h3⟩
    exact ⟨s', hb.ok_iff.1 h1, .inl h2, h3⟩

/-! ## Derived types as fields -/

omit [Env] in
theorem StructDef.missing_alike (d : StructDef V) (n n' : Str) (sp sp' : Span) :
    Res.Same (d.missing n sp) (d.missing n' sp') := by
  unfold StructDef.missing
  cases d.default with
  | none => exact .err
  | some v => exact .ok rfl

/-- The hypotheses of C98 hold for fields whose types are derived structures with such fields: a value that is not
written, a flattened structure and the inside of a transparent one do not depend on the names and places that are only
used in messages, and a flattened structure reads everything. -/
theorem c98_nested {d : StructDef V} (hn : NoContainer d.fields) (hp : Placeless d.fields)
    (hi : d.isTransparent = true → ∀ f ∈ d.fields, ∀ m m', (f.item.inline m).Alike (f.item.inline m')) :
    (∀ n n' sp sp', Res.Same (d.missing n sp) (d.missing n' sp')) ∧
    (∀ m m' pre validate, (d.flatNamed.parse m pre validate).Alike (d.flatNamed.parse m' pre validate)) ∧
    (∀ m m', (d.dict.inline m).Alike (d.dict.inline m')) ∧
    (d.shape = .named → d.FieldsFine → FlatEnds d.fields → ∀ m pre validate l v l',
      d.flatNamed.parse m pre validate l = (.ok v, l') → ∀ s ∈ l', s.toks = []) := by
  have hself : SameFields d.data d.data := ⟨rfl, rfl, rfl, rfl⟩
  refine ⟨d.missing_alike, fun m m' pre validate => ?_, fun m m' => ?_, fun hs hg he m pre validate l v l' h => ?_⟩
  · exact M.Alike.mapRes (fun l => namedFlat_alike hself hn hp _ _ _ _ _ l) fun _ _ h => runAndThens_alike _ h
  · by_cases hu : d.isTransparent = false ∧ d.shape = .unit
    · intro l
      simp only [StructDef.dict, hu.1, hu.2, Bool.false_eq_true, if_false, Dict.mk']
      exact ⟨.refl _, trivial⟩
    · have key := fun m => d.body_alike hn hp hi (fun h1 h2 => hu ⟨h1, h2⟩) .meta m .unnamed
      intro l
      obtain ⟨h1, h2⟩ := key m l
      obtain ⟨h3, h4⟩ := key m' l
      generalize (d.dict.inline m l).1 = a at h1 ⊢
      generalize (d.dict.inline m' l).1 = b at h3 ⊢
      generalize (d.attrBody .meta .unnamed l).1 = c at h1 h3
      refine ⟨?_, h2.trans h4.symm⟩
      cases h1 with
      | ok h => cases h3 with | ok h' => exact .ok (h.trans h'.symm)
      | err => cases h3 with | err => exact .err
      | panic => cases h3 with | panic => exact .panic
  · simp only [StructDef.flatNamed, M.mapRes, Prod.mk.injEq] at h
    obtain ⟨w, h1, _⟩ := (runAndThens_ok _ _ _).1 h.1
    exact namedFlat_left d.data ⟨fun f hf _ n sp => (hg.item f hf).named n sp,
      fun f hf n sp => (hg.item f hf).missing n sp, hg.flat hs⟩ he _ _ _ _ (Prod.ext h1 h.2)

/-- Likewise for enums. -/
theorem c98_nested_enum {e : EnumDef V} (hn : ∀ v ∈ e.variants, NoContainer v.fields)
    (hp : ∀ v ∈ e.variants, Placeless v.fields) :
    (∀ n n' sp sp', Res.Same (e.dict.missing n sp) (e.dict.missing n' sp')) ∧
    (∀ m m' pre validate, (e.flatNamed.parse m pre validate).Alike (e.flatNamed.parse m' pre validate)) ∧
    (∀ m m', (e.dict.inline m).Alike (e.dict.inline m')) ∧
    (∀ m pre validate l v l', e.flatNamed.parse m pre validate l = (.ok v, l') → ∀ s ∈ l', s.toks = []) := by
  refine ⟨fun n n' sp sp' => ?_, fun m m' pre validate => enumFlat_alike hn hp _ _ _ _ _ _, fun m m' => enumFlat_alike hn hp _ _ _ _ _ _,
    fun m pre validate l v l' h => enumFlat_left e _ _ _ _ h⟩
  simp only [EnumDef.dict, Dict.mk']
  cases e.default with
  | none => exact .err
  | some v => exact .ok rfl

/-! ## Places -/

/-- C98: a field that the arguments of an attribute macro lack is reported at the call of the macro, under its Rust
name. -/
theorem c98_missing {d : StructDef V} (ha : d.Accepted) (hg : d.FieldsFine) (hs : d.shape = .named)
    (ht : d.isTransparent = false) {toks : List Tok} {bs : List (SItem V)}
    (h : ItemsAll (StructSeg d.fields []) [⟨toks, callSite, none⟩] bs) {i : Nat} {f : Field V}
    (hf : d.fields[i]? = some f) (hp : f.Plain) (hn : given i bs = none) (hd : f.default = none)
    (htg : d.default = none) (hm : ∀ n sp, f.item.missing n sp = .err (missingFieldError n sp)) {name : Str}
    (hname : f.ident = some name) :
    ∃ e, topParse2 d.dict toks = .err e ∧
      ⟨callSite, .missingField ("`".toList ++ name ++ "`".toList)⟩ ∈ e.toList := by
  obtain ⟨e, h1, h2⟩ := c35_nothing_hidden d.data ha.fields ht
    ⟨fun f hf _ n sp => (hg.item f hf).named n sp, fun f hf n sp => (hg.item f hf).missing n sp, hg.flat hs⟩
    (Field.fieldNames d.fields) (.named callSite) [] (!d.acceptsAll) h _
    (.inr (.inr ⟨i, f, hf, hp, hn, hd, htg, hm _ _⟩))
  refine ⟨e, ?_, h2.subset ?_⟩
  · have : (single (d.dict.inline (.named callSite)) ⟨toks, callSite, none⟩).1 = .err e := by
      simp only [single, StructDef.dict, ht, hs, Bool.false_eq_true, if_false, Dict.mk', StructDef.flatNamed, M.mapRes, h1]
      rfl
    unfold topParse2 parse2
    generalize single (d.dict.inline (.named callSite)) ⟨toks, callSite, none⟩ = q at this
    obtain ⟨r, s⟩ := q
    simp only at this
    subst this
    rfl
  · simp [missingFieldError, SynErr.new, SynErr.toList, missingName, hname, StructDef.data, joinPath, Mode.toFullSpan,
      Mode.namedSpan]

/-! ## Where it fails -/

/-- `#[attr(toks)]` -/
def attrOf (toks : List Tok) : List Attr := [⟨⟨false, [("attr".toList, false)], 1⟩, .list .paren toks⟩]

/-- `struct P(bool, bool);` -/
def pairDef : StructDef Bool where
  shape := .unnamed
  fields := [{ plainField [] boolDict with ident := none, idents := [] },
    { plainField [] boolDict with ident := none, idents := [] }]
  default := none
  transparent := none
  allowUnknown := none
  andThens := []

/-- `struct U;` -/
def unitDef : StructDef Bool where
  shape := .unit
  fields := []
  default := none
  transparent := none
  allowUnknown := none
  andThens := []

/-- The tokens `true, false`. -/
def pairToks : List Tok := [.ident "true".toList 2, .punct ',' false 3, .ident "false".toList 4]

/-- C98 fails for a comma at the end: `#[attr(true, false,)]` is a `P` and `#[attr(,)]` a `U`, but `deluxe::parse`
rejects both the arguments `true, false,` (which every other list of Rust allows) and `,`. -/
theorem c98_trailing_comma_violated :
    (pairDef.attrTarget [["attr".toList]]).parseAttributes HasAttrs.vec (fun _ => true)
      (attrOf (pairToks ++ [.punct ',' false 5])) = .ok [true, false] ∧
    topParse2 pairDef.dict (pairToks ++ [.punct ',' false 5]) = .err (.new 5 .unexpectedToken) ∧
    (unitDef.attrTarget [["attr".toList]]).parseAttributes HasAttrs.vec (fun _ => true)
      (attrOf [.punct ',' false 5]) = .ok [] ∧
    topParse2 unitDef.dict [.punct ',' false 5] = .err (.new 5 .unexpectedToken) :=
  ⟨rfl, rfl, rfl, rfl⟩

/-- Without the comma both agree. -/
example : (pairDef.attrTarget [["attr".toList]]).parseAttributes HasAttrs.vec (fun _ => true) (attrOf pairToks) =
      .ok [true, false] ∧ topParse2 pairDef.dict pairToks = .ok [true, false] := ⟨rfl, rfl⟩

/-- C98 fails for enums with a flattened variant that takes any key (compare C89): the key `bogus` is ignored in an
attribute, and reported by `deluxe::parse`. -/
theorem c98_any_key_violated :
    (anyEnum.attrTarget [["e".toList]]).parseAttributes HasAttrs.vec (fun _ => true)
      [⟨⟨false, [("e".toList, false)], 9⟩, .list .paren anyEnumToks⟩] = .ok (0, [true]) ∧
    ∀ v, topParse2 anyEnum.dict anyEnumToks ≠ .ok v := by
  refine ⟨?_, fun v hv => ?_⟩
  · refine c89_dropped_violated (label := some "e".toList) (span := 9) (fun _ _ => (anyEnum_fine _).1)
      (anyEnum_fine .meta).2.1 (anyEnum_fine .meta).2.2 anyEnum_takesAny (ss := [⟨anyEnumToks, callSite, none⟩]) ?_ rfl rfl
      (anyEnum_items _) ?_ rfl rfl ?_
    · exact .list .nil
    · intro s hs
      have : s ∈ [(⟨[], callSite, none⟩ : Stream)] := hs
      simp only [List.mem_cons, List.not_mem_nil, or_false] at this
      subst this
      exact ⟨rfl, rfl⟩
    · intro key hkey hne
      simp only [allKeys, List.map_cons, List.map_nil, List.mem_cons, List.not_mem_nil, or_false, List.nil_append] at hkey
      rcases hkey with rfl | rfl
      · exact absurd rfl hne
      · exact ⟨by decide, by decide⟩
  · obtain ⟨err, c, h1, _⟩ := c89_reported (anyEnum_fine _).1 (anyEnum_fine .meta).2.1 (anyEnum_fine .meta).2.2
      (anyEnum_items _) rfl rfl (.named callSite) (key := "bogus".toList) (sp' := 8) (by simp [allKeys]) (by decide)
    rw [topParse2_ok _ _ fun l => AdvL.length
      ((EnumDef.dict_good (anyEnum_fine _).1 (anyEnum_fine .meta).2.1 (anyEnum_fine .meta).2.2).inline _ l).2] at hv
    obtain ⟨s', h2, _⟩ := hv
    rw [h2] at h1
    cases h1

/-! ## Concrete cases -/

omit [Env] in
theorem plain_placeless (name : Str) {f : Field Bool} (hi : f.item = boolDict)
    (hc : f.flatCall = (plainField name boolDict).flatCall) : f.Placeless :=
  ⟨fun _ _ _ _ => by rw [hi]; exact .err, fun _ _ _ _ _ => by rw [hc]; exact ⟨.refl _, rfl⟩⟩

omit [Env] in
theorem demoDef_meets : demoDef.Accepted ∧ Placeless demoDef.fields ∧ FlatEnds demoDef.fields := by
  refine ⟨⟨demo_accepted, by simp [demoDef, StructDef.isTransparent], by simp [demoDef]⟩, fun f hf => ?_, fun f hf hp => ?_⟩
  · simp only [demoDef, demo, List.mem_cons, List.not_mem_nil, or_false] at hf
    rcases hf with rfl | rfl | rfl | rfl
    · exact plain_placeless "a".toList rfl rfl
    · exact plain_placeless "b".toList rfl rfl
    · exact plain_placeless "s".toList rfl rfl
    · exact plain_placeless "c".toList rfl rfl
  · simp only [demoDef, demo, List.mem_cons, List.not_mem_nil, or_false] at hf
    rcases hf with rfl | rfl | rfl | rfl <;>
      simp [plainField, Field.flatParsable, Field.isFlat, Field.isFlatten] at hp

/-- C98: `demoDef` from `#[attr(a, c = true,)]` and from the arguments `a, c = true,`. -/
example (v : List Bool) :
    let toks : List Tok := [.ident "a".toList 2, .punct ',' false 3, .ident "c".toList 6, .punct '=' false 7,
      .ident "true".toList 8, .punct ',' false 9]
    ((demoDef.attrTarget [["attr".toList]]).parseAttributes HasAttrs.vec (fun _ => true) (attrOf toks) = .ok v ↔
      topParse2 demoDef.dict toks = .ok v) ∧ topParse2 demoDef.dict toks = .ok [true, false, true, false] := by
  intro toks
  exact ⟨c98_named demoDef_meets.1 demoDef_fine rfl rfl demoDef_noContainer demoDef_meets.2.1 demoDef_meets.2.2 _ _ _
    (attrOf toks) rfl v, rfl⟩

omit [Env] in
theorem demoEnum_meets : (∀ site, demoEnum.Accepted site) ∧ (∀ v ∈ demoEnum.variants, NoContainer v.fields) ∧
    (∀ v ∈ demoEnum.variants, Placeless v.fields) ∧ ¬ demoEnum.SomeTakesAny := by
  have key : ∀ v ∈ demoEnum.variants, ∃ a b c d, v = boolVariant a b c d := by
    intro v hv
    simp only [demoEnum, List.mem_cons, List.not_mem_nil, or_false] at hv
    rcases hv with rfl | rfl | rfl | rfl <;> exact ⟨_, _, _, _, rfl⟩
  refine ⟨fun site v hv _ => ?_, fun v hv f hf => ?_, fun v hv f hf => ?_, ?_⟩
  · obtain ⟨a, b, c, d, rfl⟩ := key v hv
    refine ⟨fun f hf hp => ?_, fun hs => by simp [boolVariant] at hs,
      fun ht => by simp [boolVariant, Variant.isTransparent] at ht, fun _ => rfl⟩
    simp only [boolVariant, List.mem_map] at hf
    obtain ⟨x, _, rfl⟩ := hf
    simp [plainField, Field.isParsable, Field.isContainer] at hp
  · obtain ⟨a, b, c, d, rfl⟩ := key v hv
    simp only [boolVariant, List.mem_map] at hf
    obtain ⟨x, _, rfl⟩ := hf
    rfl
  · obtain ⟨a, b, c, d, rfl⟩ := key v hv
    simp only [boolVariant, List.mem_map] at hf
    obtain ⟨x, _, rfl⟩ := hf
    exact plain_placeless x.1.toList rfl rfl
  · rintro ⟨v, hv, _, h⟩
    obtain ⟨a, b, c, d, rfl⟩ := key v hv
    rcases h with ⟨_, h⟩ | h
    · cases h
    · simp [Field.acceptsAll, boolVariant, plainField, Field.isFlatten] at h

/-- C98: `demoEnum` from `#[attr(p, q)]` and from the arguments `p, q`. -/
example (v : EnumVal Bool) :
    let toks : List Tok := [.ident "p".toList 2, .punct ',' false 3, .ident "q".toList 4]
    ((demoEnum.attrTarget [["attr".toList]]).parseAttributes HasAttrs.vec (fun _ => true) (attrOf toks) = .ok v ↔
      topParse2 demoEnum.dict toks = .ok v) ∧ topParse2 demoEnum.dict toks = .ok (2, [true, true]) := by
  intro toks
  exact ⟨c98_enum demoEnum_meets.1 demoEnum_fine.2.1 demoEnum_fine.2.2 demoEnum_meets.2.1 demoEnum_meets.2.2.1
    demoEnum_meets.2.2.2 _ _ _ (attrOf toks) rfl v, rfl⟩

/-- C98: the field `c` of `demoDef` is missing in the arguments `a`. -/
example : topParse2 demoDef.dict [.ident "a".toList 2] = .err (.new callSite (.missingField "`c`".toList)) := rfl

end
end Deluxe
