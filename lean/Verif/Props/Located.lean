import Verif.Lemmas.LocatedEnum
import Verif.Lemmas.LocatedTypes
import Verif.Model.Top
import Verif.Props.Local
import Verif.Props.Attributes
/-!
# C100: messages point into the attribute

A message that is reported for an attribute points to a token of the attribute, to its path, to the call site of
the macro, or to a span that `Span::join` makes from such spans.
-/
namespace Deluxe

/-- The spans in `S`, the call site, and what can be joined from these. -/
inductive Near [Env] (S : Span → Prop) : Span → Prop
  | base {sp : Span} : S sp → Near S sp
  | callSite : Near S callSite
  | join {a b c : Span} : Near S a → Near S b → Env.join a b = some c → Near S c

instance [Env] (S : Span → Prop) : Area (Near S) := ⟨.join, .callSite⟩

/-- Larger sets of places. -/
theorem Tok.In.mono {P Q : Span → Prop} (h : ∀ sp, P sp → Q sp) {t : Tok} (ht : t.In P) : t.In Q := by
  induction ht with
  | ident hp => exact .ident (h _ hp)
  | punct hp => exact .punct (h _ hp)
  | lit hp => exact .lit (h _ hp)
  | group _ h1 h2 ih => exact .group ih (h _ h1) (h _ h2)

/-- The spans that occur in a list of tokens, at any depth. -/
inductive InToks : List Tok → Span → Prop
  | head {t : Tok} {rest : List Tok} : InToks (t :: rest) t.span
  | close {d : Delim} {inner rest : List Tok} {sp cl : Span} : InToks (.group d inner sp cl :: rest) cl
  | inner {d : Delim} {inner rest : List Tok} {sp cl x : Span} : InToks inner x →
      InToks (.group d inner sp cl :: rest) x
  | tail {t : Tok} {rest : List Tok} {x : Span} : InToks rest x → InToks (t :: rest) x

theorem InToks.mem {t : Tok} {toks : List Tok} (ht : t ∈ toks) {x : Span} (h : InToks [t] x) : InToks toks x := by
  induction toks with
  | nil => cases ht
  | cons y rest ih =>
    rcases List.mem_cons.1 ht with rfl | ht
    · cases h with
      | head => exact .head
      | close => exact .close
      | inner h => exact .inner h
      | tail h => cases h
    · exact .tail (ih ht)

theorem inToks_tok (t : Tok) : t.In (InToks [t]) := by
  match t with
  | .ident s sp => exact .ident .head
  | .punct c j sp => exact .punct .head
  | .lit l sp => exact .lit .head
  | .group d inner sp cl =>
    exact .group (fun u hu => (inToks_tok u).mono fun x hx => .inner (hx.mem hu)) .head .close

/-- Every list of tokens lies where it lies. -/
theorem inToks_all {toks : List Tok} {t : Tok} (ht : t ∈ toks) : t.In (InToks toks) :=
  (inToks_tok t).mono fun _ hx => hx.mem ht

/-! ## The types -/

/-- What a field of the type contributes besides its item: the flattening, `append` and `rest` implementations
and its `and_then` functions. -/
structure Field.SideIn {V : Type} (P : Span → Prop) (f : Field V) : Prop where
  flatNamed : f.flatNamed.In P
  flatUnnamed : f.flatUnnamed.In P
  append : ∀ names, LocL P (f.appendP names)
  rest : ∀ names, LocL P (f.restP names)
  andThen : ∀ g, .andThen g ∈ f.transforms → ∀ v e, g v = .error e → e.In P

/-- The types deluxe provides and derives; parsers from `syn` (`p`), which are not part of deluxe, report inside
the tokens they are given. -/
inductive PlacedType [Env] (P : Span → Prop) : {α : Type} → Dict α → Prop
  | int {α} (conv : Bool × Nat → Option α) : PlacedType P (intDict conv)
  | u8 : PlacedType P u8Dict
  | bool : PlacedType P boolDict
  | char : PlacedType P charDict
  | string : PlacedType P stringDict
  | ident : PlacedType P identDict
  | literal : PlacedType P literalDict
  | punct : PlacedType P punctDict
  | tokenTree : PlacedType P tokenTreeDict
  | group : PlacedType P groupDict
  | unit : PlacedType P unitDict
  | tokenStream : PlacedType P tokenStreamDict
  | flag : PlacedType P flagDict
  | syn {α} {p : M Stream α} : Loc P p → PlacedType P (synDict p)
  | synParen {α} {p : M Stream α} : Loc P p → PlacedType P (synParenDict p)
  | option {α} {d : Dict α} : PlacedType P d → PlacedType P (optionDict d)
  | wrapper {α} {d : Dict α} : PlacedType P d → PlacedType P (wrapperDict d)
  | spanned {α} {d : Dict α} : PlacedType P d → PlacedType P (spannedDict d)
  | array {α} (n : Nat) {d : Dict α} : PlacedType P d → PlacedType P (arrayDict n d)
  | tuple {α} {ds : List (Dict α)} : (∀ d ∈ ds, PlacedType P d) → PlacedType P (tupleDict ds)
  | seq {α} {d : Dict α} : PlacedType P d → PlacedType P (seqDict d)
  | set {α} [DecidableEq α] {d : Dict α} : PlacedType P d → PlacedType P (setDict d)
  | map {κ ν} [DecidableEq κ] {kd : Dict κ} (ks : κ → Str) {vd : Dict ν} : PlacedType P kd → PlacedType P vd →
      PlacedType P (mapDict kd ks vd)
  | punctuated {α} {d : Dict α} (peekP : Stream → Bool) {parseP : M Stream Unit} : PlacedType P d → Loc P parseP →
      PlacedType P (punctuatedDict d peekP parseP)
  | fromStr {α} (conv : Str → Except Str α) : PlacedType P (fromStrDict conv)
  | fromStrDefault {α} (conv : Str → Except Str α) (dflt : α) : PlacedType P (fromStrDefaultDict conv dflt)
  | modPath {α} {p : M Stream α} : Loc P p → PlacedType P (modPathDict p)
  | anyPath : PlacedType P anyPathDict
  | quoted {α} (lex : Str → Except SynErr (List Tok)) {d : Dict α} : PlacedType P d → PlacedType P (quotedDict lex d)
  | maybeQuoted {α} (lex : Str → Except SynErr (List Tok)) {d : Dict α} : PlacedType P d →
      PlacedType P (maybeQuotedDict lex d)
  | withSyn {α} {p : M Stream α} : Loc P p → PlacedType P (withSynDict p)
  | synQuoted {α} (lex : Str → Except SynErr (List Tok)) {p : M Stream α} : Loc P p →
      PlacedType P (synQuotedDict lex p)
  | identity {α} {d : Dict α} : PlacedType P d → PlacedType P (identityDict d)
  | withOptional {α} {d : Dict α} : PlacedType P d → PlacedType P (withOptional d)
  | withSeq {α} {d : Dict α} : PlacedType P d → PlacedType P (withSeq d)
  | withMap {κ ν} [DecidableEq κ] {kd : Dict κ} (ks : κ → Str) {vd : Dict ν} : PlacedType P kd → PlacedType P vd →
      PlacedType P (withMap kd ks vd)
  | struct {V} (d : StructDef V) : (∀ f ∈ d.fields, PlacedType P f.item) → (∀ f ∈ d.fields, f.SideIn P) →
      (∀ g ∈ d.andThens, ∀ v e, g v = .error e → e.In P) → PlacedType P d.dict
  | enum {V} (e : EnumDef V) : (∀ v ∈ e.variants, ∀ f ∈ v.fields, PlacedType P f.item) →
      (∀ v ∈ e.variants, ∀ f ∈ v.fields, f.SideIn P) →
      (∀ g ∈ e.andThens, ∀ v e, g v = .error e → e.In P) → PlacedType P e.dict
  | embed {α β} {d : Dict α} (f : α → β) : PlacedType P d → PlacedType P (d.map f)

theorem Field.SideIn.full {V : Type} {P : Span → Prop} {f : Field V} (h : f.SideIn P) (hi : f.item.In P) : f.In P :=
  ⟨hi, h.flatNamed, h.flatUnnamed, h.append, h.rest, h.andThen⟩

/-- **C100.**  Every form of an item of a provided or derived type reports inside the tokens it is read from. -/
theorem c100_every_type [Env] {P : Span → Prop} [Area P] {α : Type} {d : Dict α} (h : PlacedType P d) : d.In P := by
  induction h with
  | int conv => exact intDict_in conv
  | u8 => exact u8Dict_in
  | bool => exact boolDict_in
  | char => exact charDict_in
  | string => exact stringDict_in
  | ident => exact identDict_in
  | literal => exact literalDict_in
  | punct => exact punctDict_in
  | tokenTree => exact tokenTreeDict_in
  | group => exact groupDict_in
  | unit => exact unitDict_in
  | tokenStream => exact tokenStreamDict_in
  | flag => exact flagDict_in
  | syn h => exact synDict_in h
  | synParen h => exact synParenDict_in h
  | option _ ih => exact optionDict_in ih
  | wrapper _ ih => exact wrapperDict_in ih
  | spanned _ ih => exact spannedDict_in ih
  | array n _ ih => exact arrayDict_in n ih
  | tuple _ ih => exact tupleDict_in ih
  | seq _ ih => exact seqDict_in ih
  | set _ ih => exact setDict_in ih
  | map ks _ _ ih1 ih2 => exact mapDict_in ks ih1 ih2
  | punctuated a _ hp ih => exact punctuatedDict_in ih a hp
  | fromStr conv => exact fromStrDict_in conv
  | fromStrDefault conv d => exact fromStrDefaultDict_in conv d
  | modPath h => exact modPathDict_in h
  | anyPath => exact anyPathDict_in
  | quoted lex _ ih => exact quotedDict_in lex ih
  | maybeQuoted lex _ ih => exact maybeQuotedDict_in lex ih
  | withSyn h => exact withSynDict_in h
  | synQuoted lex h => exact synQuotedDict_in lex h
  | identity _ ih => exact identityDict_in ih
  | withOptional _ ih => exact withOptional_in ih
  | withSeq _ ih => exact withSeq_in ih
  | withMap ks _ _ ih1 ih2 => exact withMap_in ks ih1 ih2
  | struct d _ h2 h3 ih => exact StructDef.In.dict ⟨fun f hf => (h2 f hf).full (ih f hf), h3⟩
  | enum e _ h2 h3 ih => exact EnumDef.In.dict ⟨fun v hv f hf => (h2 v hv f hf).full (ih v hv f hf), h3⟩
  | embed f _ ih => exact ih.map f

/-! ## Parsing an attribute -/

theorem Mode.in_callSite {P : Span → Prop} (h : P callSite) : (Mode.named callSite).In P := by
  intro sp hs
  cases hs
  exact h

/-- **C100**, `parse2` (and `parse`, of which C59 speaks): the messages of a failed attribute macro point to the
tokens between its parentheses, or to the call site. -/
theorem c100_parse2 [Env] {α : Type} {d : Dict α} {toks : List Tok} (hd : d.In (Near (InToks toks))) {e : SynErr}
    (h : topParse2 d toks = .err e) : ∀ m ∈ e.toList, Near (InToks toks) m.span := by
  have := parse2_in (P := Near (InToks toks)) (Q := fun _ => True) .callSite
    (fun t ht => (inToks_all ht).mono fun _ => .base) (single_loc (hd.inline _ (Mode.in_callSite .callSite)))
  simp only [topParse2] at h
  rw [h] at this
  exact this

/-- The spans of the attributes `attrs`: of their paths, and of the tokens after these. -/
def InAttrs (attrs : List Attr) (sp : Span) : Prop :=
  ∃ a ∈ attrs, sp = a.path.span ∨ InToks a.body.written sp

theorem inAttrs_all {attrs : List Attr} {a : Attr} (ha : a ∈ attrs) : a.In (InAttrs attrs) :=
  ⟨⟨a, ha, .inl rfl⟩, fun _ ht => (inToks_all ht).mono fun _ hx => ⟨a, ha, .inr hx⟩⟩

theorem Attr.In.mono {P Q : Span → Prop} (h : ∀ sp, P sp → Q sp) {a : Attr} (ha : a.In P) : a.In Q :=
  ⟨h _ ha.path, fun t ht => (ha.body t ht).mono h⟩

section
variable [Env] {V α O : Type}

/-- The code that the derive generates for a type reports inside the attributes it is given. -/
def AttrTarget.In (P : Span → Prop) (t : AttrTarget V α) : Prop :=
  ∀ site (m : Mode), m.In P → LocL P (t.body site m)

omit [Env] in
theorem AttrTarget.In.func {P : Span → Prop} (A : P callSite) {t : AttrTarget V α} (h : t.In P) (o : V)
    (paths : List (Str × Span)) (hp : ∀ x ∈ paths, P x.2) : LocL P (t.func o paths) :=
  h _ _ fun sp hs => by cases hs; exact firstSpan_in A hp

/-- **C100**, `parse_attributes`: the messages point to the attributes of the type, not to others, or to the call
site. -/
theorem c100_parse_attributes {t : AttrTarget V α} {h : HasAttrs O} {o : O}
    (ht : t.In (Near (InAttrs ((h.attrs o).filter fun a => t.matches_ a.path)))) (container : O → V) {e : SynErr}
    (he : t.parseAttributes h container o = .err e) :
    ∀ m ∈ e.toList, Near (InAttrs ((h.attrs o).filter fun a => t.matches_ a.path)) m.span := by
  have h1 := parseNext_loc (P := Near (InAttrs ((h.attrs o).filter fun a => t.matches_ a.path))) .callSite
    (ht.func .callSite (container o)) (refTokens t.matches_ (h.attrs o))
    (refTokens_in .callSite fun a ha hm =>
      (inAttrs_all (List.mem_filter.2 ⟨ha, hm⟩)).mono fun _ => .base) [] (by simp) [] StreamsIn.nil
  simp only [AttrTarget.parseAttributes, parseStructAttrTokens] at he
  rw [he] at h1
  exact h1.1

/-- **C100**, `extract_attributes` of an object whose attributes can be taken. -/
theorem c100_extract_attributes {t : AttrTarget V α} {h : HasAttrs O} {o : O} {attrs : List Attr}
    {put : List Attr → O} (ha : h.attrsMut o = .ok (attrs, put))
    (ht : t.In (Near (InAttrs (attrs.filter fun a => t.matches_ a.path)))) (container : O → V) {e : SynErr}
    (he : (t.extractAttributes h container o).1 = .err e) :
    ∀ m ∈ e.toList, Near (InAttrs (attrs.filter fun a => t.matches_ a.path)) m.span := by
  have h1 := parseNext_loc (P := Near (InAttrs (attrs.filter fun a => t.matches_ a.path))) .callSite
    (ht.func .callSite (container (put (takeTokens t.matches_ attrs).2))) (takeTokens t.matches_ attrs).1
    (takeLoop_in .callSite _ _ _ _ (fun a ha hm =>
      (inAttrs_all (List.mem_filter.2 ⟨ha, hm⟩)).mono fun _ => .base) (by simp)) [] (by simp) [] StreamsIn.nil
  simp only [AttrTarget.extractAttributes, ha, parseStructAttrTokens] at he
  rw [he] at h1
  exact h1.1

/-- The derived code of structures and enums is such. -/
theorem c100_struct {P : Span → Prop} [Area P] {d : StructDef V} (h : ∀ f ∈ d.fields, PlacedType P f.item)
    (hs : ∀ f ∈ d.fields, f.SideIn P) (ha : ∀ g ∈ d.andThens, ∀ v e, g v = .error e → e.In P)
    (attributes : List (List Str)) : (d.attrTarget attributes).In P :=
  fun site m hm =>
    StructDef.In.attrBody ⟨fun f hf => (hs f hf).full (c100_every_type (h f hf)), ha⟩ site m hm

@[inherit_doc c100_struct]
theorem c100_enum {P : Span → Prop} [Area P] {d : EnumDef V}
    (h : ∀ v ∈ d.variants, ∀ f ∈ v.fields, PlacedType P f.item)
    (hs : ∀ v ∈ d.variants, ∀ f ∈ v.fields, f.SideIn P)
    (ha : ∀ g ∈ d.andThens, ∀ v e, g v = .error e → e.In P)
    (attributes : List (List Str)) : (d.attrTarget attributes).In P :=
  fun site m hm =>
    EnumDef.In.attrBody ⟨fun v hv f hf => (hs v hv f hf).full (c100_every_type (h v hv f hf)), ha⟩ site m hm

/-- **C100**, the item: what is wrong with the value of an item is reported at the item, that is at its key, its
tokens, the comma after it, or the end of the list; not at other items. -/
theorem c100_item {α : Type} {d : Dict α} (hl : d.Local) {n : Str} {sp : Span} {v : List Tok} {c : Tok}
    (hv : NoComma v) (hc : Comma c) {rest : List Tok} {sc : Span} {e : SynErr}
    (hd : d.In (Near fun x => x = sp ∨ x = sc ∨ InToks (v ++ [c]) x))
    (h : (d.named n sp ⟨v ++ c :: rest, sc, none⟩).1 = .err e) :
    ∀ m ∈ e.toList, Near (fun x => x = sp ∨ x = sc ∨ InToks (v ++ [c]) x) m.span := by
  obtain ⟨r, v', u', -, h2⟩ := hl.named n sp v c sc none hv hc
  have h3 := (hd.named n sp (.base (.inl rfl)) ⟨v ++ c :: [], sc, none⟩
    ⟨fun t ht => (inToks_all ht).mono fun _ hx => .base (.inr (.inr hx)), .base (.inr (.inl rfl)), by simp⟩).1
  rw [h2 rest] at h
  rw [h2 []] at h3
  dsimp only at h h3
  subst h
  exact h3

end

/-! ## Cases -/

section
variable [Env]

omit [Env] in
theorem demo_side {P : Span → Prop} : ∀ f ∈ demoDef.fields, f.SideIn P := by
  have h : ∀ f ∈ demoDef.fields, f.flatNamed = ⟨false, [], fun _ _ _ => M.panic⟩ ∧
      f.flatUnnamed = ⟨none, fun _ _ => M.panic⟩ ∧ (f.appendP = fun _ => M.panic) ∧
      (f.restP = fun _ => M.panic) ∧ ∀ g, .andThen g ∉ f.transforms := by
    intro f hf
    simp only [demoDef, demo, List.mem_cons, List.not_mem_nil, or_false] at hf
    rcases hf with rfl | rfl | rfl | rfl <;> simp [plainField]
  intro f hf
  obtain ⟨h1, h2, h3, h4, h5⟩ := h f hf
  refine ⟨?_, ?_, ?_, ?_, fun g hg => absurd hg (h5 g)⟩
  · rw [h1]; exact ⟨fun _ _ _ _ => Keeps.panic⟩
  · rw [h2]; exact ⟨fun _ _ _ => Keeps.panic⟩
  · rw [h3]; exact fun _ => Keeps.panic
  · rw [h4]; exact fun _ => Keeps.panic

theorem demo_placed {P : Span → Prop} : ∀ f ∈ demoDef.fields, PlacedType P f.item := by
  intro f hf
  simp only [demoDef, demo, List.mem_cons, List.not_mem_nil, or_false] at hf
  rcases hf with rfl | rfl | rfl | rfl <;> exact .bool

/-- `#[x(a = 4)] #[doc = ".."] #[x(zz)]`: three messages, at the value, at the unknown key and at the first
attribute of the type; none at the other attribute. -/
def wrongAttrs : List Attr :=
  [⟨⟨false, [("x".toList, false)], 1⟩, .list .paren [.ident "a".toList 2, .punct '=' false 3, .lit (.int 4) 4]⟩,
    ⟨⟨false, [("doc".toList, false)], 5⟩, .nameValue [.lit (.str []) 6]⟩,
    ⟨⟨false, [("x".toList, false)], 7⟩, .list .paren [.ident "zz".toList 8]⟩]

example : ∃ e, (demoDef.attrTarget [["x".toList]]).parseAttributes HasAttrs.vec (fun _ => true) wrongAttrs = .err e ∧
    e.toList.map (·.span) = [4, 8, 1] := ⟨_, rfl, rfl⟩

example {e : SynErr}
    (he : (demoDef.attrTarget [["x".toList]]).parseAttributes HasAttrs.vec (fun _ => true) wrongAttrs = .err e) :
    ∀ m ∈ e.toList, Near (InAttrs [wrongAttrs[0], wrongAttrs[2]]) m.span :=
  c100_parse_attributes (c100_struct demo_placed demo_side (by simp [demoDef]) _) _ he

example {e : SynErr} (he : ((demoDef.attrTarget [["x".toList]]).extractAttributes HasAttrs.vec (fun _ => true)
      wrongAttrs).1 = .err e) :
    ∀ m ∈ e.toList, Near (InAttrs [wrongAttrs[0], wrongAttrs[2]]) m.span :=
  c100_extract_attributes (attrs := wrongAttrs) rfl (c100_struct demo_placed demo_side (by simp [demoDef]) _) _ he

/-- `Option<Vec<(bool, String)>>` as the type of an attribute macro. -/
example {toks : List Tok} {e : SynErr}
    (h : topParse2 (optionDict (seqDict (tupleDict [boolDict.map Sum.inl, stringDict.map Sum.inr]))) toks = .err e) :
    ∀ m ∈ e.toList, Near (InToks toks) m.span := by
  refine c100_parse2 (c100_every_type (.option (.seq (.tuple fun d hd => ?_)))) h
  simp only [List.mem_cons, List.not_mem_nil, or_false] at hd
  rcases hd with rfl | rfl
  · exact .embed _ .bool
  · exact .embed _ .string

/-- `k = 1, ..` for a boolean: the message is at the `1`. -/
example (rest : List Tok) : ∃ e, (boolDict.named "k".toList 2
      ⟨[.punct '=' false 3, .lit (.int 1) 4] ++ .punct ',' false 5 :: rest, 9, none⟩).1 = .err e ∧
    e.toList.map (·.span) = [4] := ⟨_, rfl, rfl⟩

example {rest : List Tok} {e : SynErr} (h : (boolDict.named "k".toList 2
      ⟨[.punct '=' false 3, .lit (.int 1) 4] ++ .punct ',' false 5 :: rest, 9, none⟩).1 = .err e) :
    ∀ m ∈ e.toList, Near (fun x => x = 2 ∨ x = 9 ∨ InToks ([.punct '=' false 3, .lit (.int 1) 4] ++
      [.punct ',' false 5]) x) m.span :=
  c100_item c56_bool
    (by intro t ht; simp at ht; rcases ht with rfl | rfl <;> rintro ⟨_, _, h⟩ <;> simp at h) ⟨false, 5, rfl⟩
    (c100_every_type .bool) h

/-- The call site cannot be left out: `#[x(a, c =)]` is reported at the call site, which is no span of the
attribute, since deluxe makes the delimiters of the list anew; so is the wrong delimiter in `#[x[a]]`. -/
theorem c100_call_site_violated :
    ∃ a b : Attr, (∀ sp, InAttrs [a] sp → sp ≠ callSite) ∧ (∀ sp, InAttrs [b] sp → sp ≠ callSite) ∧
      (∃ e, (demoDef.attrTarget [["x".toList]]).parseAttributes HasAttrs.vec (fun _ => true) [a] = .err e ∧
        e.toList.map (·.span) = [callSite]) ∧
      ∃ e, (demoDef.attrTarget [["x".toList]]).parseAttributes HasAttrs.vec (fun _ => true) [b] = .err e ∧
        e.toList.map (·.span) = [callSite] := by
  refine ⟨⟨⟨false, [("x".toList, false)], 1⟩,
      .list .paren [.ident "a".toList 2, .punct ',' false 3, .ident "c".toList 4, .punct '=' false 5]⟩,
    ⟨⟨false, [("x".toList, false)], 1⟩, .list .bracket [.ident "a".toList 2]⟩, ?_, ?_, ⟨_, rfl, rfl⟩,
    ⟨_, rfl, rfl⟩⟩
  · rintro sp ⟨a, ha, h⟩
    rw [List.mem_singleton.1 ha] at h
    rcases h with rfl | h
    · simp [callSite]
    · cases h with
      | head => simp [callSite, Tok.span]
      | tail h => cases h with
        | head => simp [callSite, Tok.span]
        | tail h => cases h with
          | head => simp [callSite, Tok.span]
          | tail h => cases h with
            | head => simp [callSite, Tok.span]
            | tail h => cases h
  · rintro sp ⟨a, ha, h⟩
    rw [List.mem_singleton.1 ha] at h
    rcases h with rfl | h
    · simp [callSite]
    · cases h with
      | head => simp [callSite, Tok.span]
      | tail h => cases h

end

end Deluxe
