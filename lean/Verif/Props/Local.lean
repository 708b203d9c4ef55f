import Verif.Lemmas.Local
import Verif.Model.Attributes
import Verif.Lemmas.Reads
import Verif.Props.Primitives
/-!
# C56: item parsers do not look past their own item

`Dict.Local d` says it for both ways of reading a value: `parse_meta_item`, and `parse_meta_item_named` after
a key.  The tokens `v` have no comma at top level and a comma `c` follows; `rest` is what follows the comma.
Then the outcome, what is left of `v` and the recorded unexpected token are the same for all `rest`.
-/
namespace Deluxe

/-! ## Primitives -/

theorem c56_int {α : Type} (conv : Bool × Nat → Option α) : (intDict conv).Local :=
  Dict.mk'_local fun _ => Local.congr (Local.convert (expectLit_local _ _) fun sp n =>
    match conv n with
    | some a => .ok a
    | none => .err (.new sp (.custom "number out of range".toList))) fun v c rest sc u => by
      simp only [parseLitInt]
      rcases h : expectLit _ _ _ with ⟨r, s'⟩
      cases r with
      | ok n => dsimp only; cases hc : conv n <;> rfl
      | err e => rfl
      | panic => rfl

theorem c56_u8 : u8Dict.Local := by
  refine Dict.mk'_local fun _ => .of_cases (fun c sc u hc => ?_) fun t v c sc u hv hc => ?_
  · obtain ⟨j, sp, rfl⟩ := hc
    exact ⟨.err (.new sp (.expected "byte literal or integer literal".toList)), u, fun rest => by simp [Stream.error, Tok.span]⟩
  · by_cases h : (∃ j sp, t = .punct '-' j sp) ∧ ∃ n sp w, v = .lit (.int n) sp :: w
    · obtain ⟨⟨j, sp, rfl⟩, n, sp2, w, rfl⟩ := h
      exact ⟨.err (.new sp (.custom "number out of range".toList)), w, u, ⟨[_, _], rfl⟩, fun rest => rfl⟩
    · cases t with
      | lit l sp =>
        cases l with
        | byte b => exact ⟨.ok b, v, u, List.suffix_cons _ _, fun rest => rfl⟩
        | int n =>
          by_cases hn : n < 256
          · exact ⟨.ok n, v, u, List.suffix_cons _ _, fun rest => by simp [hn]⟩
          · exact ⟨.err (.new sp (.custom "number out of range".toList)), v, u, List.suffix_cons _ _,
              fun rest => by simp [hn]⟩
        | _ => exact ⟨.err (.new sp (.expected "byte literal or integer literal".toList)), _ :: v, u,
            List.suffix_refl _, fun rest => rfl⟩
      | ident x sp => exact ⟨.err (.new sp (.expected "byte literal or integer literal".toList)), _ :: v, u,
            List.suffix_refl _, fun rest => rfl⟩
      | group a b sp d => exact ⟨.err (.new sp (.expected "byte literal or integer literal".toList)), _ :: v, u,
            List.suffix_refl _, fun rest => rfl⟩
      | punct ch j sp =>
        refine ⟨.err (.new sp (.expected "byte literal or integer literal".toList)), _ :: v, u,
            List.suffix_refl _, fun rest => ?_⟩
        dsimp only
        split
        · simp_all
        · simp_all
        · rename_i j' sp' n sp2 w heq
          exfalso
          simp only [List.cons.injEq] at heq
          refine h ⟨⟨j, sp, by rw [heq.1]; simp_all⟩, ?_⟩
          cases v with
          | nil =>
            obtain ⟨_, _, rfl⟩ := hc
            simp at heq
          | cons t2 w' =>
            simp only [List.cons_append, List.cons.injEq] at heq
            exact ⟨_, _, w', by rw [heq.2.1]⟩
        · rfl

theorem c56_bool : boolDict.Local := Dict.mk'_local fun _ => expectLit_local _ _
theorem c56_char : charDict.Local := Dict.mk'_local fun _ => expectLit_local _ _
theorem c56_string : stringDict.Local := Dict.mk'_local fun _ => expectLit_local _ _

/-- Parsers that look at one token only. -/
theorem Local.of_one {α : Type} {p : M Stream α} (f : Tok → Res α × Bool)
    (hc : ∀ c, Comma c → (f c).2 = false)
    (h : ∀ t rest sc u, p ⟨t :: rest, sc, u⟩ = ((f t).1, ⟨if (f t).2 then rest else t :: rest, sc, u⟩)) :
    Local p := by
  refine .of_cases (fun c sc u hcc => ⟨(f c).1, u, fun rest => by rw [h, hc c hcc]; rfl⟩) fun t v c sc u hv hcc =>
    ⟨(f t).1, if (f t).2 then v else t :: v, u, ?_, fun rest => ?_⟩
  · split
    · exact List.suffix_cons _ _
    · exact List.suffix_refl _
  · rw [h]
    cases (f t).2 <;> rfl

theorem parseIdentAny_local : Local parseIdentAny :=
  .of_one (fun t => match t with
    | .ident x _ => (.ok x, true)
    | t => (.err (.new t.span (.expected "ident".toList)), false))
    (by rintro _ ⟨_, _, rfl⟩; rfl) fun t rest sc u => by cases t <;> rfl

theorem c56_ident : identDict.Local := Dict.mk'_local fun _ => parseIdentAny_local

theorem c56_literal : literalDict.Local := Dict.mk'_local fun _ =>
  .of_one (fun t => match t with
    | .lit l _ => (.ok l, true)
    | t => (.err (.new t.span (.custom "expected literal".toList)), false))
    (by rintro _ ⟨_, _, rfl⟩; rfl) fun t rest sc u => by cases t <;> rfl

theorem c56_group : groupDict.Local := Dict.mk'_local fun _ =>
  .of_one (fun t => match t with
    | .group d inner _ _ => (.ok (d, inner), true)
    | t => (.err (.new t.span (.custom "expected parenthesis or brace or bracket".toList)), false))
    (by rintro _ ⟨_, _, rfl⟩; rfl) fun t rest sc u => by cases t <;> rfl

theorem c56_unit : unitDict.Local := Dict.mk'_local fun _ => withContent_local _ _

theorem takeToks_local (v : List Tok) (c : Tok) (rest : List Tok) (hv : NoComma v) (hc : Comma c) :
    takeToks (v ++ c :: rest) = (v, c :: rest) := by
  induction v with
  | nil => simp [takeToks, (isComma_iff c).2 hc]
  | cons t v ih =>
    have ht : t.isComma = false := (isComma_eq_false_iff t).2 (hv t (.head _))
    simp [takeToks, ht, ih fun x hx => hv x (.tail _ hx)]

theorem tokenStreamParse_local (m : Mode) : Local (tokenStreamParse m) := by
  intro v c sc u hv hc
  cases v with
  | nil =>
    exact ⟨.err (.new c.span .unexpectedComma), [], u, List.suffix_refl _, fun rest => by
      obtain ⟨j, sp, rfl⟩ := hc
      rfl⟩
  | cons t v =>
    refine ⟨.ok (t :: v), [], u, List.nil_suffix, fun rest => ?_⟩
    have ht : t.isPunct ',' = false := (isComma_eq_false_iff t).2 (hv t (.head _))
    simp only [tokenStreamParse, takeToks_local _ c rest hv hc]
    simp [Stream.peekPunct, ht]

theorem c56_tokenStream : tokenStreamDict.Local := Dict.mk'_local tokenStreamParse_local

/-- Any syn node whose parser has the property. -/
theorem c56_syn {α : Type} {p : M Stream α} (h : Local p) : (synDict p).Local := Dict.mk'_local fun _ => h

theorem c56_synParen {α : Type} {p : M Stream α} (h : Local p) : (synParenDict p).Local :=
  Dict.mk'_local fun m => by
    cases m with
    | named sp => exact withContent_local _ _
    | unnamed => exact h

/-! ## Wrappers, `Option`, `Flag` -/

theorem c56_option {α : Type} {d : Dict α} (h : d.Local) : (optionDict d).Local := by
  refine Dict.mk'_local fun m => ?_
  cases m with
  | named sp => exact (h.parse _).map _
  | unnamed =>
    refine .of_cases (fun c sc u hc => ?_) fun t v c sc u hv hc => ?_
    · obtain ⟨j, sp, rfl⟩ := hc
      exact ⟨.err (.new sp (.expected "`Some` or `None`".toList)), u, fun rest => rfl⟩
    · have hother : ∀ sp, Tok.span t = sp → (∀ x sp, t ≠ .ident x sp) → ∃ r v' u', v' <:+ t :: v ∧ ∀ rest,
          (optionDict d).parse .unnamed ⟨t :: (v ++ c :: rest), sc, u⟩ = (r, ⟨v' ++ c :: rest, sc, u'⟩) := by
        intro sp hsp hn
        refine ⟨.err (.new sp (.expected "`Some` or `None`".toList)), t :: v, u, List.suffix_refl _, fun rest => ?_⟩
        subst hsp
        cases t with
        | ident x sp => exact absurd rfl (hn x sp)
        | _ => rfl
      cases t with
      | ident x sp =>
        by_cases h1 : x = "Some".toList
        · subst h1
          obtain ⟨r, v', u', g1, g2⟩ := (parseDelimitedMetaItem_local .paren d.inline .unnamed).map some v c sc u
            (fun y hy => hv y (.tail _ hy)) hc
          refine ⟨r, v', u', g1.trans (List.suffix_cons _ _), fun rest => ?_⟩
          simp only [peekIdent, BEq.rfl, ↓reduceIte, dropTok, List.tail_cons]
          exact g2 rest
        · by_cases h2 : x = "None".toList
          · subst h2
            exact ⟨.ok none, v, u, List.suffix_cons _ _, fun rest => rfl⟩
          · refine ⟨.err (.new sp (.expected "`Some` or `None`".toList)), .ident x sp :: v, u, List.suffix_refl _,
              fun rest => ?_⟩
            simp only [peekIdent, beq_iff_eq, h1, h2, ↓reduceIte]
            rfl
      | punct a b sp => exact hother _ rfl (by simp)
      | lit a sp => exact hother _ rfl (by simp)
      | group a b sp d => exact hother _ rfl (by simp)

theorem c56_wrapper {α : Type} {d : Dict α} (h : d.Local) : (wrapperDict d).Local := Dict.mk'_local h.parse

theorem Local.spanned [Env] {α β : Type} {p : M Stream α} (h : Local p) (f : Span → Span → α → β) :
    Local (fun s => let (r, s') := p s; (r.map (f s.span s'.span), s')) := by
  intro v c sc u hv hc
  obtain ⟨r, v', u', h1, h2⟩ := h v c sc u hv hc
  refine ⟨r.map (f (Stream.span ⟨v ++ c :: [], sc, u⟩) (Stream.span ⟨v' ++ c :: [], sc, u'⟩)), v', u', h1,
    fun rest => ?_⟩
  simp only [h2]
  rw [Stream.span_local v c rest [] sc u u, Stream.span_local v' c rest [] sc u' u']

/-- The span, too: it may reach the comma, but never what follows it. -/
theorem c56_spanned [Env] {α : Type} {d : Dict α} (h : d.Local) : (spannedDict d).Local :=
  ⟨fun m => (h.parse m).spanned fun a b v => Spanned.mk v ((Env.join b a).getD a),
   fun n sp => (h.named n sp).spanned fun _ b v => Spanned.mk v ((Env.join b sp).getD sp)⟩

theorem c56_flag [Env] : flagDict.Local := by
  refine ⟨fun m => ?_, fun n sp => ?_⟩
  · intro v c sc u hv hc
    refine ⟨(flagDict.parse m ⟨v ++ c :: [], sc, u⟩).1, v, u, List.suffix_refl _, fun rest => ?_⟩
    simp only [flagDict, inputsSpan, List.foldl_nil]
    rw [Stream.span_local v c rest [] sc u u]
  · intro v c sc u hv hc
    refine ⟨(flagDict.named n sp ⟨v ++ c :: [], sc, u⟩).1, v, u, List.suffix_refl _, fun rest => ?_⟩
    cases v with
    | nil => simp [flagDict, Stream.peekPunct, Stream.isEmpty, show c.isPunct ',' = true from (isComma_iff c).2 hc]
    | cons t v =>
      have ht : t.isPunct ',' = false := (isComma_eq_false_iff t).2 (hv t (.head _))
      simp [flagDict, Stream.peekPunct, Stream.isEmpty, ht, Stream.span]

/-! ## Collections, tuples, arrays: one group -/

theorem c56_array [Env] {α : Type} (n : Nat) (d : Dict α) : (arrayDict n d).Local :=
  Dict.mk'_local fun _ => parseDelimitedMetaItem_local _ _ _
theorem c56_tuple [Env] {α : Type} (ds : List (Dict α)) : (tupleDict ds).Local :=
  Dict.mk'_local fun _ => parseDelimitedMetaItem_local _ _ _
theorem c56_seq {α : Type} (d : Dict α) : (seqDict d).Local :=
  Dict.mk'_local fun _ => parseDelimitedMetaItem_local _ _ _
theorem c56_set [Env] {α : Type} [DecidableEq α] (d : Dict α) : (setDict d).Local :=
  Dict.mk'_local fun _ => parseDelimitedMetaItem_local _ _ _
theorem c56_map [Env] {κ ν : Type} [DecidableEq κ] (kd : Dict κ) (ks : κ → Str) (vd : Dict ν) :
    (mapDict kd ks vd).Local := Dict.mk'_local fun _ => parseDelimitedMetaItem_local _ _ _
theorem c56_punctuated {α : Type} (d : Dict α) (peekP : Stream → Bool) (parseP : M Stream Unit) :
    (punctuatedDict d peekP parseP).Local := Dict.mk'_local fun _ => parseDelimitedMetaItem_local _ _ _

/-! ## The `with` modules -/

theorem c56_fromStr {α : Type} (conv : Str → Except Str α) : (fromStrDict conv).Local :=
  withModule_local fun _ => Local.congr (Local.convert (expectLit_local _ _) fun sp v =>
    match conv v with
    | .ok a => .ok a
    | .error m => .err (.new sp (.custom m))) fun v c rest sc u => by
      simp only [fromStrParse, parseLitStr]
      rcases h : expectLit _ _ _ with ⟨r, s'⟩
      cases r with
      | ok n => dsimp only; cases hc : conv n <;> rfl
      | err e => rfl
      | panic => rfl

theorem c56_fromStrDefault {α : Type} (conv : Str → Except Str α) (dflt : α) :
    (fromStrDefaultDict conv dflt).Local := withModule_local (c56_fromStr conv).parse

theorem c56_modPath {α : Type} {p : M Stream α} (h : Local p) : (modPathDict p).Local := withModule_local fun _ => h

theorem c56_anyPath [Env] : anyPathDict.Local := withModule_local fun _ => parseAnyPath_local

theorem quotedParse_local {α : Type} (lex : Str → Except SynErr (List Tok)) (f : M Stream α) :
    Local (quotedParse lex f) :=
  Local.congr (Local.convert (expectLit_local _ _) fun sp v =>
    match parseStr lex f v with
    | .err e => .err (e.moveTo sp)
    | r => r) fun v c rest sc u => by
      simp only [quotedParse, parseLitStr]
      rcases h : expectLit _ _ _ with ⟨r, s'⟩
      cases r with
      | ok n => dsimp only; cases hc : parseStr lex f n <;> rfl
      | err e => rfl
      | panic => rfl

/-- Whatever the inner type does: it only sees the tokens of the string. -/
theorem c56_quoted {α : Type} (lex : Str → Except SynErr (List Tok)) (d : Dict α) : (quotedDict lex d).Local :=
  withModule_local fun _ => quotedParse_local _ _

theorem c56_maybeQuoted {α : Type} (lex : Str → Except SynErr (List Tok)) {d : Dict α} (h : d.Local) :
    (maybeQuotedDict lex d).Local := by
  refine withModule_local fun m => ?_
  intro v c sc u hv hc
  by_cases hq : ∀ rest, peekLitStr ⟨v ++ c :: rest, sc, u⟩ = true
  · obtain ⟨r, v', u', h1, h2⟩ := quotedParse_local lex (d.parse m) v c sc u hv hc
    exact ⟨r, v', u', h1, fun rest => by simp only [maybeQuotedParse, hq, ↓reduceIte, h2]⟩
  · have hq' : ∀ rest, peekLitStr ⟨v ++ c :: rest, sc, u⟩ = false := by
      intro rest
      cases v with
      | nil => obtain ⟨_, _, rfl⟩ := hc; rfl
      | cons t v =>
        cases ht : peekLitStr ⟨(t :: v) ++ c :: rest, sc, u⟩ with
        | false => rfl
        | true => exact absurd (fun r => by rw [← ht]; cases t with
            | lit l sp => cases l <;> rfl
            | _ => rfl) hq
    obtain ⟨r, v', u', h1, h2⟩ := h.parse m v c sc u hv hc
    exact ⟨r, v', u', h1, fun rest => by simp only [maybeQuotedParse, hq', Bool.false_eq_true, ↓reduceIte, h2]⟩

theorem c56_withSyn {α : Type} {p : M Stream α} (h : Local p) : (withSynDict p).Local := withModule_local fun _ => h
theorem c56_synQuoted {α : Type} (lex : Str → Except SynErr (List Tok)) (p : M Stream α) :
    (synQuotedDict lex p).Local := withModule_local fun _ => quotedParse_local _ _
theorem c56_identity {α : Type} {d : Dict α} (h : d.Local) : (identityDict d).Local := withModule_local h.parse
theorem c56_withOptional {α : Type} {d : Dict α} (h : d.Local) : (withOptional d).Local :=
  withModule_local (c56_option (d := innerDict d) (Dict.mk'_local h.parse)).parse
theorem c56_withSeq {α : Type} (d : Dict α) : (withSeq d).Local := withModule_local (c56_seq _).parse
theorem c56_withMap [Env] {κ ν : Type} [DecidableEq κ] (kd : Dict κ) (ks : κ → Str) (vd : Dict ν) :
    (withMap kd ks vd).Local := withModule_local (c56_map _ _ _).parse

/-! ## Derived structures and enums -/

/-- A derived structure; a transparent one as far as the type of its field. -/
theorem c56_struct [Env] {V : Type} (d : StructDef V) (h : ∀ f ∈ d.fields, f.item.Local) : d.dict.Local := by
  unfold StructDef.dict
  split
  · split
    · rename_i f k hf
      have hm : f ∈ d.fields := by
        have := List.mem_of_find?_eq_some hf
        have := List.mem_zipIdx this
        simp at this
        exact this.2 ▸ List.getElem_mem _
      exact Dict.mk'_local fun m => ((h f hm).parse m).mapRes _
    · exact Dict.mk'_local fun m => Local.lift .panic
  · split <;> exact Dict.mk'_local fun m => parseDelimitedWith_local _ _

/-- A derived enum. -/
theorem c56_enum [Env] {V : Type} (e : EnumDef V) : e.dict.Local := by
  refine Dict.mk'_local fun m => ?_
  intro v c sc u hv hc
  obtain ⟨r, v', u', h1, h2⟩ := parseDelimitedMetaItem_local .brace
    (fun mode => e.flatNamed.parse mode [] (!e.flatNamed.acceptsAll)) (m.toNamed ⟨v ++ c :: [], sc, u⟩) v c sc u hv hc
  refine ⟨r, v', u', h1, fun rest => ?_⟩
  rw [← h2 rest]
  have : m.toNamed ⟨v ++ c :: rest, sc, u⟩ = m.toNamed ⟨v ++ c :: [], sc, u⟩ := by
    cases m with
    | named sp => rfl
    | unnamed => simp only [Mode.toNamed]; rw [Stream.span_local v c rest [] sc u u]
  simp only [this]

/-- The value of a variant after its key. -/
theorem c56_variant [Env] {V : Type} (v : Variant V) (h : ∀ f ∈ v.fields, f.item.Local) (site : Site V)
    (pre p : Str) (span : Span) : Local (v.item site pre p span) := by
  unfold Variant.item
  split
  · split
    · rename_i f k hf
      have hm : f ∈ v.fields := by
        have := List.mem_of_find?_eq_some hf
        have := List.mem_zipIdx this
        simp at this
        exact this.2 ▸ List.getElem_mem _
      exact ((h f hm).named _ _).mapRes _
    · exact Local.lift .panic
  · exact parseNamedWith_local (fun m => parseDelimitedWith_local _ _) _

/-! ## The two token types that may take the comma -/

theorem c56_tokenTree : tokenTreeDict.LocalUpTo := Dict.mk'_localUpTo fun _ v c sc u hv hc => by
  cases v with
  | nil => exact ⟨.ok c, [], u, List.nil_suffix, fun rest => rfl⟩
  | cons t v => exact ⟨.ok t, v ++ [c], u, List.suffix_cons _ _, fun rest => by simp⟩

theorem c56_punct : punctDict.LocalUpTo := Dict.mk'_localUpTo fun _ v c sc u hv hc => by
  cases v with
  | nil =>
    obtain ⟨j, sp, rfl⟩ := hc
    exact ⟨.ok ',', [], u, List.nil_suffix, fun rest => rfl⟩
  | cons t v =>
    cases t with
    | punct ch j sp =>
      by_cases hq : ch = '\''
      · exact ⟨.err (.new sp (.custom "expected punctuation".toList)), (_ :: v) ++ [c], u, List.suffix_refl _,
          fun rest => by simp [hq]⟩
      · exact ⟨.ok ch, v ++ [c], u, List.suffix_cons _ _, fun rest => by simp [hq]⟩
    | ident x sp => exact ⟨.err (.new sp (.custom "expected punctuation".toList)), (_ :: v) ++ [c], u,
        List.suffix_refl _, fun rest => by simp [Stream.span, Tok.span]⟩
    | lit x sp => exact ⟨.err (.new sp (.custom "expected punctuation".toList)), (_ :: v) ++ [c], u,
        List.suffix_refl _, fun rest => by simp [Stream.span, Tok.span]⟩
    | group a b sp d => exact ⟨.err (.new sp (.custom "expected punctuation".toList)), (_ :: v) ++ [c], u,
        List.suffix_refl _, fun rest => by simp [Stream.span, Tok.span]⟩

/-! ## All provided types at once -/

theorem Dict.Local.map {α β : Type} {d : Dict α} (h : d.Local) (f : α → β) : (d.map f).Local :=
  ⟨fun m => (h.parse m).map f, fun n sp => (h.named n sp).map f⟩

/-- The types for which deluxe offers or derives an implementation, and the `with` modules, in any
combination.  `syn` nodes enter with their parser, of which the property is asked; the components of
collections, tuples and of structures that are not transparent can be anything.  Without `TokenTree` and
`Punct`. -/
inductive ItemType [Env] : {α : Type} → Dict α → Prop
  | int {α} (conv : Bool × Nat → Option α) : ItemType (intDict conv)
  | u8 : ItemType u8Dict
  | bool : ItemType boolDict
  | char : ItemType charDict
  | string : ItemType stringDict
  | ident : ItemType identDict
  | literal : ItemType literalDict
  | group : ItemType groupDict
  | unit : ItemType unitDict
  | tokenStream : ItemType tokenStreamDict
  | flag : ItemType flagDict
  | syn {α} {p : M Stream α} : Local p → ItemType (synDict p)
  | synParen {α} {p : M Stream α} : Local p → ItemType (synParenDict p)
  | option {α} {d : Dict α} : ItemType d → ItemType (optionDict d)
  | wrapper {α} {d : Dict α} : ItemType d → ItemType (wrapperDict d)
  | spanned {α} {d : Dict α} : ItemType d → ItemType (spannedDict d)
  | array {α} (n : Nat) (d : Dict α) : ItemType (arrayDict n d)
  | tuple {α} (ds : List (Dict α)) : ItemType (tupleDict ds)
  | seq {α} (d : Dict α) : ItemType (seqDict d)
  | set {α} [DecidableEq α] (d : Dict α) : ItemType (setDict d)
  | map {κ ν} [DecidableEq κ] (kd : Dict κ) (ks : κ → Str) (vd : Dict ν) : ItemType (mapDict kd ks vd)
  | punctuated {α} (d : Dict α) (peekP : Stream → Bool) (parseP : M Stream Unit) :
      ItemType (punctuatedDict d peekP parseP)
  | fromStr {α} (conv : Str → Except Str α) : ItemType (fromStrDict conv)
  | fromStrDefault {α} (conv : Str → Except Str α) (dflt : α) : ItemType (fromStrDefaultDict conv dflt)
  | modPath {α} {p : M Stream α} : Local p → ItemType (modPathDict p)
  | anyPath : ItemType anyPathDict
  | quoted {α} (lex : Str → Except SynErr (List Tok)) (d : Dict α) : ItemType (quotedDict lex d)
  | maybeQuoted {α} (lex : Str → Except SynErr (List Tok)) {d : Dict α} :
      ItemType d → ItemType (maybeQuotedDict lex d)
  | withSyn {α} {p : M Stream α} : Local p → ItemType (withSynDict p)
  | synQuoted {α} (lex : Str → Except SynErr (List Tok)) (p : M Stream α) : ItemType (synQuotedDict lex p)
  | identity {α} {d : Dict α} : ItemType d → ItemType (identityDict d)
  | withOptional {α} {d : Dict α} : ItemType d → ItemType (withOptional d)
  | withSeq {α} (d : Dict α) : ItemType (withSeq d)
  | withMap {κ ν} [DecidableEq κ] (kd : Dict κ) (ks : κ → Str) (vd : Dict ν) : ItemType (withMap kd ks vd)
  | struct {V} (d : StructDef V) : (∀ f ∈ d.fields, ItemType f.item) → ItemType d.dict
  | enum {V} (e : EnumDef V) : ItemType e.dict
  | embed {α β} {d : Dict α} (f : α → β) : ItemType d → ItemType (d.map f)

/-- **C56.**  No provided type looks past the comma after its item. -/
theorem c56_every_type_partial [Env] {α : Type} {d : Dict α} (h : ItemType d) : d.Local := by
  induction h with
  | int conv => exact c56_int conv
  | u8 => exact c56_u8
  | bool => exact c56_bool
  | char => exact c56_char
  | string => exact c56_string
  | ident => exact c56_ident
  | literal => exact c56_literal
  | group => exact c56_group
  | unit => exact c56_unit
  | tokenStream => exact c56_tokenStream
  | flag => exact c56_flag
  | syn h => exact c56_syn h
  | synParen h => exact c56_synParen h
  | option _ ih => exact c56_option ih
  | wrapper _ ih => exact c56_wrapper ih
  | spanned _ ih => exact c56_spanned ih
  | array n d => exact c56_array n d
  | tuple ds => exact c56_tuple ds
  | seq d => exact c56_seq d
  | set d => exact c56_set d
  | map kd ks vd => exact c56_map kd ks vd
  | punctuated d a b => exact c56_punctuated d a b
  | fromStr conv => exact c56_fromStr conv
  | fromStrDefault conv d => exact c56_fromStrDefault conv d
  | modPath h => exact c56_modPath h
  | anyPath => exact c56_anyPath
  | quoted lex d => exact c56_quoted lex d
  | maybeQuoted lex _ ih => exact c56_maybeQuoted lex ih
  | withSyn h => exact c56_withSyn h
  | synQuoted lex p => exact c56_synQuoted lex p
  | identity _ ih => exact c56_identity ih
  | withOptional _ ih => exact c56_withOptional ih
  | withSeq d => exact c56_withSeq d
  | withMap kd ks vd => exact c56_withMap kd ks vd
  | struct d _ ih => exact c56_struct d ih
  | enum e => exact c56_enum e
  | embed f _ ih => exact ih.map f

/-- The property in terms of outcomes: two lists that agree up to and including the comma. -/
theorem c56_same_outcome [Env] {α : Type} {d : Dict α} (h : ItemType d) (m : Mode) {v : List Tok} {c : Tok}
    (hv : NoComma v) (hc : Comma c) (rest rest' : List Tok) (sc : Span) (u : Option Span) :
    (d.parse m ⟨v ++ c :: rest, sc, u⟩).1 = (d.parse m ⟨v ++ c :: rest', sc, u⟩).1 := by
  obtain ⟨r, v', u', _, h2⟩ := (c56_every_type_partial h).parse m v c sc u hv hc
  rw [h2, h2]

theorem c56_same_outcome_named [Env] {α : Type} {d : Dict α} (h : ItemType d) (n : Str) (sp : Span)
    {v : List Tok} {c : Tok} (hv : NoComma v) (hc : Comma c) (rest rest' : List Tok) (sc : Span)
    (u : Option Span) :
    (d.named n sp ⟨v ++ c :: rest, sc, u⟩).1 = (d.named n sp ⟨v ++ c :: rest', sc, u⟩).1 := by
  obtain ⟨r, v', u', _, h2⟩ := (c56_every_type_partial h).named n sp v c sc u hv hc
  rw [h2, h2]

/-- The comma is left, so that the item after it is read from its start (or skipped to): what remains ends
with the comma and all that followed it, and `skip_meta_item` goes exactly to the comma. -/
theorem c56_comma_left [Env] {α : Type} {d : Dict α} (h : ItemType d) (n : Str) (sp : Span)
    {v : List Tok} {c : Tok} (hv : NoComma v) (hc : Comma c) (rest : List Tok) (sc : Span) (u : Option Span) :
    (skipMetaItem (d.named n sp ⟨v ++ c :: rest, sc, u⟩).2).toks = c :: rest := by
  obtain ⟨r, v', u', h1, h2⟩ := (c56_every_type_partial h).named n sp v c sc u hv hc
  rw [h2]
  simp only [skipMetaItem]
  exact skipToks_boundary (hv.suffix h1) (.inr ⟨c, rest, rfl, hc⟩)

/-- `Option<SpannedValue<Vec<..>>>`, an item that fails: `= 1` followed by a comma and anything. -/
example [Env] (d : Dict Nat) (rest rest' : List Tok) :
    ((optionDict (spannedDict (seqDict d))).named "k".toList 1
        ⟨[.punct '=' false 2, .lit (.int 1) 3] ++ .punct ',' false 4 :: rest, 9, none⟩).1 =
      ((optionDict (spannedDict (seqDict d))).named "k".toList 1
        ⟨[.punct '=' false 2, .lit (.int 1) 3] ++ .punct ',' false 4 :: rest', 9, none⟩).1 :=
  c56_same_outcome_named (.option (.spanned (.seq d))) _ _
    (by intro t ht; simp at ht; rcases ht with rfl | rfl <;> rintro ⟨_, _, h⟩ <;> simp at h)
    ⟨false, 4, rfl⟩ _ _ _ _

/-- `TokenTree` is not so: `k = ,` takes the comma for the value, and what `SpannedValue<TokenTree>` says then
depends on the token after the comma. -/
theorem c56_tokenTree_violated :
    ¬ tokenTreeDict.Local ∧ ¬ (@spannedDict positions _ tokenTreeDict).LocalUpTo := by
  refine ⟨fun h => ?_, fun h => ?_⟩
  · obtain ⟨r, v', u', h1, h2⟩ := h.parse .unnamed [] (.punct ',' false 1) 0 none (by simp [NoComma]) ⟨_, _, rfl⟩
    have := congrArg (fun x => x.2.toks) (h2 [])
    simp [tokenTreeDict, Dict.mk'] at this
  · obtain ⟨r, w, u', h1, h2⟩ := h.parse .unnamed [] (.punct ',' false 1) 0 none (by simp [NoComma]) ⟨_, _, rfl⟩
    have h3 := congrArg (fun x => x.1) (h2 [.ident "a".toList 2])
    have h4 := congrArg (fun x => x.1) (h2 [.ident "a".toList 3])
    have h5 := h3.trans h4.symm
    simp [spannedDict, tokenTreeDict, Dict.mk', Res.map, Env.join, Stream.span, Tok.span] at h5

end Deluxe
