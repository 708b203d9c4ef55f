import Verif.Lemmas.LastItem
import Verif.Props.Local
import Verif.Props.Collections
import Verif.Props.Structs
/-!
# C118: the last item of a list is read like any other

An item is followed by a comma, or by the end of the list.  `Dict.EndsAlike d` says that this makes no difference to a type:
whether it takes the tokens of the item, what value it makes of them and where it stops.  So items may be put in another
order, and a comma after the last item may be written or left out.
-/
namespace Deluxe

/-! ## The types, one by one -/

theorem ends_int {α : Type} (conv : Bool × Nat → Option α) : (intDict conv).EndsAlike :=
  Dict.mk'_ends fun _ => EndsAlike.congr (EndsAlike.convert (expectLit_ends _ _) (conv := fun sp n =>
    match conv n with
    | some a => .ok a
    | none => .err (.new sp (.custom "number out of range".toList))) fun n => by
      cases h : conv n with
      | some a => exact .inl ⟨a, fun _ => rfl⟩
      | none => exact .inr fun _ _ h => by cases h) fun s => by
      simp only [parseLitInt]
      rcases h : expectLit _ _ _ with ⟨r, s'⟩
      cases r with
      | ok n => dsimp only; cases hc : conv n <;> rfl
      | err e => rfl
      | panic => rfl

theorem ends_u8 : u8Dict.EndsAlike := by
  refine Dict.mk'_ends fun _ => .of_cases (fun sc u => .inr fun rest hb x s' => ?_) fun t v sc u hv => ?_
  · rcases hb with rfl | ⟨c, r, rfl, j, sp, rfl⟩ <;> simp
  · cases t with
    | lit l sp =>
      cases l with
      | byte b => exact .inl ⟨b, v, u, List.suffix_cons _ _, fun rest _ => rfl⟩
      | int n =>
        by_cases hn : n < 256
        · exact .inl ⟨n, v, u, List.suffix_cons _ _, fun rest _ => by simp [hn]⟩
        · exact .inr fun rest _ x s' => by simp [hn]
      | _ => exact .inr fun rest _ x s' h => by cases h
    | ident x sp => exact .inr fun rest _ x s' h => by cases h
    | group a b sp d => exact .inr fun rest _ x s' h => by cases h
    | punct ch j sp =>
      refine .inr fun rest _ x s' h => ?_
      dsimp only at h
      split at h <;> simp_all

theorem ends_bool : boolDict.EndsAlike := Dict.mk'_ends fun _ => expectLit_ends _ _
theorem ends_char : charDict.EndsAlike := Dict.mk'_ends fun _ => expectLit_ends _ _
theorem ends_string : stringDict.EndsAlike := Dict.mk'_ends fun _ => expectLit_ends _ _

theorem ends_ident : identDict.EndsAlike := Dict.mk'_ends fun _ =>
  .of_one (fun t => match t with
    | .ident x _ => (.ok x, true)
    | t => (.err (.new t.span (.expected "ident".toList)), false))
    (by rintro _ ⟨_, _, rfl⟩ x h; cases h) (fun _ _ _ _ h => by cases h) fun t rest sc u => by cases t <;> rfl

theorem ends_literal : literalDict.EndsAlike := Dict.mk'_ends fun _ =>
  .of_one (fun t => match t with
    | .lit l _ => (.ok l, true)
    | t => (.err (.new t.span (.custom "expected literal".toList)), false))
    (by rintro _ ⟨_, _, rfl⟩ x h; cases h) (fun _ _ _ _ h => by cases h) fun t rest sc u => by cases t <;> rfl

theorem ends_group : groupDict.EndsAlike := Dict.mk'_ends fun _ =>
  .of_one (fun t => match t with
    | .group d inner _ _ => (.ok (d, inner), true)
    | t => (.err (.new t.span (.custom "expected parenthesis or brace or bracket".toList)), false))
    (by rintro _ ⟨_, _, rfl⟩ x h; cases h) (fun _ _ _ _ h => by cases h) fun t rest sc u => by cases t <;> rfl

theorem ends_unit : unitDict.EndsAlike := Dict.mk'_ends fun _ => withContent_ends _ _

theorem takeToks_ends (v rest : List Tok) (hv : NoComma v) (hb : Boundary rest) : takeToks (v ++ rest) = (v, rest) := by
  rcases hb with rfl | ⟨c, r, rfl, hc⟩
  · induction v with
    | nil => rfl
    | cons t v ih =>
      have ht : t.isComma = false := (isComma_eq_false_iff t).2 (hv t (.head _))
      have := ih fun x hx => hv x (.tail _ hx)
      simp only [List.append_nil] at this ⊢
      simp [takeToks, ht, this]
  · exact takeToks_local v c r hv hc

theorem ends_tokenStream : tokenStreamDict.EndsAlike := Dict.mk'_ends fun m v sc u hv => by
  cases v with
  | nil =>
    refine .inr fun rest hb x s' h => ?_
    rcases hb with rfl | ⟨c, r, rfl, j, sp, rfl⟩
    · simp [tokenStreamParse, Stream.peekPunct, takeToks] at h
    · simp [tokenStreamParse, Stream.peekPunct, Tok.isPunct] at h
  | cons t v =>
    refine .inl ⟨t :: v, [], u, List.nil_suffix, fun rest hb => ?_⟩
    have ht : t.isPunct ',' = false := (isComma_eq_false_iff t).2 (hv t (.head _))
    simp only [tokenStreamParse, takeToks_ends _ rest hv hb]
    simp [Stream.peekPunct, ht]

theorem ends_syn {α : Type} {p : M Stream α} (h : EndsAlike p) : (synDict p).EndsAlike := Dict.mk'_ends fun _ => h

theorem ends_synParen {α : Type} {p : M Stream α} (h : EndsAlike p) : (synParenDict p).EndsAlike :=
  Dict.mk'_ends fun m => by
    cases m with
    | named sp => exact withContent_ends _ _
    | unnamed => exact h

theorem ends_flag [Env] : flagDict.EndsAlike := by
  refine ⟨fun m => .fails (fun s x s' h => nomatch h), fun n sp => .of_cases (fun sc u => ?_) fun t v sc u hv => ?_⟩
  · refine .inl ⟨some sp, u, fun rest hb => ?_⟩
    rcases hb with rfl | ⟨c, r, rfl, hc⟩
    · rfl
    · simp [flagDict, Stream.peekPunct, show c.isPunct ',' = true from (isComma_iff c).2 hc]
  · have ht : t.isPunct ',' = false := (isComma_eq_false_iff t).2 (hv t (.head _))
    exact .inr fun rest _ x s' => by simp [flagDict, Stream.peekPunct, Stream.isEmpty, ht]

theorem ends_option {α : Type} {d : Dict α} (h : d.EndsAlike) : (optionDict d).EndsAlike := by
  refine Dict.mk'_ends fun m => ?_
  cases m with
  | named sp => exact (h.parse _).map _
  | unnamed =>
    refine .of_cases (fun sc u => .inr fun rest hb x s' => ?_) fun t v sc u hv => ?_
    · rcases hb with rfl | ⟨c, r, rfl, j, sp, rfl⟩ <;> simp [peekIdent]
    · cases t with
      | ident x sp =>
        by_cases h1 : x = "Some".toList
        · subst h1
          rcases (parseDelimitedMetaItem_ends .paren d.inline .unnamed).map some v sc u
            (fun y hy => hv y (.tail _ hy)) with ⟨y, w, u', g1, g2⟩ | g2
          · refine .inl ⟨y, w, u', g1.trans (List.suffix_cons _ _), fun rest hb => ?_⟩
            simp only [peekIdent, BEq.rfl, ↓reduceIte, dropTok, List.tail_cons]
            exact g2 rest hb
          · refine .inr fun rest hb y s' => ?_
            simp only [peekIdent, BEq.rfl, ↓reduceIte, dropTok, List.tail_cons]
            exact g2 rest hb y s'
        · by_cases h2 : x = "None".toList
          · subst h2
            exact .inl ⟨none, v, u, List.suffix_cons _ _, fun rest _ => rfl⟩
          · refine .inr fun rest _ y s' h => ?_
            simp only [peekIdent, beq_iff_eq, h1, h2, ↓reduceIte] at h
            cases h
      | punct a b sp => exact .inr fun rest _ y s' h => by cases h
      | lit a sp => exact .inr fun rest _ y s' h => by cases h
      | group a b sp d => exact .inr fun rest _ y s' h => by cases h

theorem ends_wrapper {α : Type} {d : Dict α} (h : d.EndsAlike) : (wrapperDict d).EndsAlike := Dict.mk'_ends h.parse

theorem Dict.EndsAlike.map {α β : Type} {d : Dict α} (h : d.EndsAlike) (f : α → β) : (d.map f).EndsAlike :=
  ⟨fun m => (h.parse m).map f, fun n sp => (h.named n sp).map f⟩

theorem EndsAlike.value {α : Type} {p : M Stream α} (h : EndsAlike p) (f : Span → Span → Span) :
    EndsAlike (M.map Spanned.value fun s => let (r, s') := p s; (r.map fun v => Spanned.mk v (f s.span s'.span), s')) :=
  h.congr fun s => by
    simp only [M.map]
    rcases p s with ⟨r, s'⟩
    cases r <;> rfl

/-- The value of `SpannedValue`; for the span see `c118_spanned_violated`. -/
theorem ends_spannedValue [Env] {α : Type} {d : Dict α} (h : d.EndsAlike) : ((spannedDict d).map Spanned.value).EndsAlike :=
  ⟨fun m => (h.parse m).value fun a b => (Env.join b a).getD a,
   fun n sp => (h.named n sp).value fun _ b => (Env.join b sp).getD sp⟩

theorem ends_array [Env] {α : Type} (n : Nat) (d : Dict α) : (arrayDict n d).EndsAlike :=
  Dict.mk'_ends fun _ => parseDelimitedMetaItem_ends _ _ _
theorem ends_tuple [Env] {α : Type} (ds : List (Dict α)) : (tupleDict ds).EndsAlike :=
  Dict.mk'_ends fun _ => parseDelimitedMetaItem_ends _ _ _
theorem ends_seq {α : Type} (d : Dict α) : (seqDict d).EndsAlike :=
  Dict.mk'_ends fun _ => parseDelimitedMetaItem_ends _ _ _
theorem ends_set [Env] {α : Type} [DecidableEq α] (d : Dict α) : (setDict d).EndsAlike :=
  Dict.mk'_ends fun _ => parseDelimitedMetaItem_ends _ _ _
theorem ends_map [Env] {κ ν : Type} [DecidableEq κ] (kd : Dict κ) (ks : κ → Str) (vd : Dict ν) :
    (mapDict kd ks vd).EndsAlike := Dict.mk'_ends fun _ => parseDelimitedMetaItem_ends _ _ _
theorem ends_punctuated {α : Type} (d : Dict α) (peekP : Stream → Bool) (parseP : M Stream Unit) :
    (punctuatedDict d peekP parseP).EndsAlike := Dict.mk'_ends fun _ => parseDelimitedMetaItem_ends _ _ _

theorem ends_fromStr {α : Type} (conv : Str → Except Str α) : (fromStrDict conv).EndsAlike :=
  withModule_ends fun _ => EndsAlike.congr (EndsAlike.convert (expectLit_ends _ _) (conv := fun sp v =>
    match conv v with
    | .ok a => .ok a
    | .error m => .err (.new sp (.custom m))) fun v => by
      cases h : conv v with
      | ok a => exact .inl ⟨a, fun _ => rfl⟩
      | error m => exact .inr fun _ _ h => by cases h) fun s => by
      simp only [fromStrParse, parseLitStr]
      rcases h : expectLit _ _ _ with ⟨r, s'⟩
      cases r with
      | ok n => dsimp only; cases hc : conv n <;> rfl
      | err e => rfl
      | panic => rfl

theorem ends_fromStrDefault {α : Type} (conv : Str → Except Str α) (dflt : α) :
    (fromStrDefaultDict conv dflt).EndsAlike := withModule_ends (ends_fromStr conv).parse

theorem ends_modPath {α : Type} {p : M Stream α} (h : EndsAlike p) : (modPathDict p).EndsAlike := withModule_ends fun _ => h

theorem ends_anyPath [Env] : anyPathDict.EndsAlike := withModule_ends fun _ => parseAnyPath_ends

theorem quotedParse_ends {α : Type} (lex : Str → Except SynErr (List Tok)) (f : M Stream α) :
    EndsAlike (quotedParse lex f) :=
  EndsAlike.congr (EndsAlike.convert (expectLit_ends _ _) (conv := fun sp v =>
    match parseStr lex f v with
    | .err e => .err (e.moveTo sp)
    | r => r) fun v => by
      cases h : parseStr lex f v with
      | ok a => exact .inl ⟨a, fun _ => rfl⟩
      | err m => exact .inr fun _ _ h => by cases h
      | panic => exact .inr fun _ _ h => by cases h) fun s => by
      simp only [quotedParse, parseLitStr]
      rcases h : expectLit _ _ _ with ⟨r, s'⟩
      cases r with
      | ok n => dsimp only; cases hc : parseStr lex f n <;> rfl
      | err e => rfl
      | panic => rfl

theorem ends_quoted {α : Type} (lex : Str → Except SynErr (List Tok)) (d : Dict α) : (quotedDict lex d).EndsAlike :=
  withModule_ends fun _ => quotedParse_ends _ _

theorem ends_maybeQuoted {α : Type} (lex : Str → Except SynErr (List Tok)) {d : Dict α} (h : d.EndsAlike) :
    (maybeQuotedDict lex d).EndsAlike := by
  refine withModule_ends fun m => ?_
  intro v sc u hv
  have hq : ∃ b, ∀ rest, Boundary rest → peekLitStr ⟨v ++ rest, sc, u⟩ = b := by
    cases v with
    | nil =>
      refine ⟨false, fun rest hb => ?_⟩
      rcases hb with rfl | ⟨c, r, rfl, j, sp, rfl⟩ <;> rfl
    | cons t v =>
      refine ⟨peekLitStr ⟨[t], sc, u⟩, fun rest _ => ?_⟩
      cases t with
      | lit l sp => cases l <;> rfl
      | _ => rfl
  obtain ⟨b, hq⟩ := hq
  cases b with
  | true =>
    rcases quotedParse_ends lex (d.parse m) v sc u hv with ⟨x, w, u', h1, h2⟩ | h2
    · exact .inl ⟨x, w, u', h1, fun rest hb => by simp only [maybeQuotedParse, hq rest hb, ↓reduceIte, h2 rest hb]⟩
    · exact .inr fun rest hb x s' => by simp only [maybeQuotedParse, hq rest hb, ↓reduceIte]; exact h2 rest hb x s'
  | false =>
    rcases h.parse m v sc u hv with ⟨x, w, u', h1, h2⟩ | h2
    · exact .inl ⟨x, w, u', h1, fun rest hb => by
        simp only [maybeQuotedParse, hq rest hb, Bool.false_eq_true, ↓reduceIte, h2 rest hb]⟩
    · exact .inr fun rest hb x s' => by
        simp only [maybeQuotedParse, hq rest hb, Bool.false_eq_true, ↓reduceIte]; exact h2 rest hb x s'

theorem ends_withSyn {α : Type} {p : M Stream α} (h : EndsAlike p) : (withSynDict p).EndsAlike := withModule_ends fun _ => h
theorem ends_synQuoted {α : Type} (lex : Str → Except SynErr (List Tok)) (p : M Stream α) :
    (synQuotedDict lex p).EndsAlike := withModule_ends fun _ => quotedParse_ends _ _
theorem ends_identity {α : Type} {d : Dict α} (h : d.EndsAlike) : (identityDict d).EndsAlike := withModule_ends h.parse
theorem ends_withOptional {α : Type} {d : Dict α} (h : d.EndsAlike) : (withOptional d).EndsAlike :=
  withModule_ends (ends_option (d := innerDict d) (Dict.mk'_ends h.parse)).parse
theorem ends_withSeq {α : Type} (d : Dict α) : (withSeq d).EndsAlike := withModule_ends (ends_seq _).parse
theorem ends_withMap [Env] {κ ν : Type} [DecidableEq κ] (kd : Dict κ) (ks : κ → Str) (vd : Dict ν) :
    (withMap kd ks vd).EndsAlike := withModule_ends (ends_map _ _ _).parse

/-- A derived structure; a transparent one as far as the type of its field. -/
theorem ends_struct [Env] {V : Type} (d : StructDef V) (h : ∀ f ∈ d.fields, f.item.EndsAlike) : d.dict.EndsAlike := by
  unfold StructDef.dict
  split
  · split
    · rename_i f k hf
      have hm : f ∈ d.fields := by
        have := List.mem_of_find?_eq_some hf
        have := List.mem_zipIdx this
        simp at this
        exact this.2 ▸ List.getElem_mem _
      exact Dict.mk'_ends fun m => ((h f hm).parse m).mapRes fun r y hr => by
        cases r with
        | ok x => exact ⟨x, rfl⟩
        | err e => cases hr
        | panic => cases hr
    · exact Dict.mk'_ends fun m => .fails fun s x s' h => by cases h
  · split <;> exact Dict.mk'_ends fun m => parseDelimitedWith_ends _ _

/-- A derived enum. -/
theorem ends_enum [Env] {V : Type} (e : EnumDef V) : e.dict.EndsAlike := by
  refine Dict.mk'_ends fun m => .of_cases (fun sc u => .inr fun rest hb x s' h => ?_) fun t v sc u hv => ?_
  · rcases parseDelimitedMetaItem_ends .brace
      (fun mode => e.flatNamed.parse mode [] (!e.flatNamed.acceptsAll)) (m.toNamed ⟨rest, sc, u⟩) [] sc u
      (by simp [NoComma]) with ⟨x', w, u', h1, h2⟩ | h2
    · have := h2 [] (.inl rfl)
      simp [parseDelimitedMetaItem, withContent, enter, parseDelimitedWith] at this
    · exact h2 rest hb x s' h
  · rcases parseDelimitedMetaItem_ends .brace
      (fun mode => e.flatNamed.parse mode [] (!e.flatNamed.acceptsAll)) (m.toNamed ⟨[t], sc, u⟩) (t :: v) sc u hv
      with ⟨x, w, u', h1, h2⟩ | h2
    · exact .inl ⟨x, w, u', h1, fun rest hb => h2 rest hb⟩
    · exact .inr fun rest hb x s' => h2 rest hb x s'

/-- The value of a variant after its key. -/
theorem ends_variant [Env] {V : Type} (v : Variant V) (h : ∀ f ∈ v.fields, f.item.EndsAlike) (site : Site V)
    (pre p : Str) (span : Span) : EndsAlike (v.item site pre p span) := by
  unfold Variant.item
  split
  · split
    · rename_i f k hf
      have hm : f ∈ v.fields := by
        have := List.mem_of_find?_eq_some hf
        have := List.mem_zipIdx this
        simp at this
        exact this.2 ▸ List.getElem_mem _
      exact ((h f hm).named _ _).mapRes fun r y hr => by
        cases r with
        | ok x => exact ⟨x, rfl⟩
        | err e => cases hr
        | panic => cases hr
    · exact .fails fun s x s' h => by cases h
  · exact parseNamedWith_ends (fun m => parseDelimitedWith_ends _ _) _

/-! ## All provided types at once -/

/-- The types for which deluxe offers or derives an implementation, and the `with` modules, in any combination.  `syn`
nodes enter with their parser, of which the property is asked; the components of collections, tuples and of structures
that are not transparent can be anything.  Without `TokenTree` and `Punct`, and of `SpannedValue` only the value. -/
inductive PlainItem [Env] : {α : Type} → Dict α → Prop
  | int {α} (conv : Bool × Nat → Option α) : PlainItem (intDict conv)
  | u8 : PlainItem u8Dict
  | bool : PlainItem boolDict
  | char : PlainItem charDict
  | string : PlainItem stringDict
  | ident : PlainItem identDict
  | literal : PlainItem literalDict
  | group : PlainItem groupDict
  | unit : PlainItem unitDict
  | tokenStream : PlainItem tokenStreamDict
  | flag : PlainItem flagDict
  | syn {α} {p : M Stream α} : EndsAlike p → PlainItem (synDict p)
  | synParen {α} {p : M Stream α} : EndsAlike p → PlainItem (synParenDict p)
  | option {α} {d : Dict α} : PlainItem d → PlainItem (optionDict d)
  | wrapper {α} {d : Dict α} : PlainItem d → PlainItem (wrapperDict d)
  | spannedValue {α} {d : Dict α} : PlainItem d → PlainItem ((spannedDict d).map Spanned.value)
  | array {α} (n : Nat) (d : Dict α) : PlainItem (arrayDict n d)
  | tuple {α} (ds : List (Dict α)) : PlainItem (tupleDict ds)
  | seq {α} (d : Dict α) : PlainItem (seqDict d)
  | set {α} [DecidableEq α] (d : Dict α) : PlainItem (setDict d)
  | map {κ ν} [DecidableEq κ] (kd : Dict κ) (ks : κ → Str) (vd : Dict ν) : PlainItem (mapDict kd ks vd)
  | punctuated {α} (d : Dict α) (peekP : Stream → Bool) (parseP : M Stream Unit) :
      PlainItem (punctuatedDict d peekP parseP)
  | fromStr {α} (conv : Str → Except Str α) : PlainItem (fromStrDict conv)
  | fromStrDefault {α} (conv : Str → Except Str α) (dflt : α) : PlainItem (fromStrDefaultDict conv dflt)
  | modPath {α} {p : M Stream α} : EndsAlike p → PlainItem (modPathDict p)
  | anyPath : PlainItem anyPathDict
  | quoted {α} (lex : Str → Except SynErr (List Tok)) (d : Dict α) : PlainItem (quotedDict lex d)
  | maybeQuoted {α} (lex : Str → Except SynErr (List Tok)) {d : Dict α} :
      PlainItem d → PlainItem (maybeQuotedDict lex d)
  | withSyn {α} {p : M Stream α} : EndsAlike p → PlainItem (withSynDict p)
  | synQuoted {α} (lex : Str → Except SynErr (List Tok)) (p : M Stream α) : PlainItem (synQuotedDict lex p)
  | identity {α} {d : Dict α} : PlainItem d → PlainItem (identityDict d)
  | withOptional {α} {d : Dict α} : PlainItem d → PlainItem (withOptional d)
  | withSeq {α} (d : Dict α) : PlainItem (withSeq d)
  | withMap {κ ν} [DecidableEq κ] (kd : Dict κ) (ks : κ → Str) (vd : Dict ν) : PlainItem (withMap kd ks vd)
  | struct {V} (d : StructDef V) : (∀ f ∈ d.fields, PlainItem f.item) → PlainItem d.dict
  | enum {V} (e : EnumDef V) : PlainItem e.dict
  | embed {α β} {d : Dict α} (f : α → β) : PlainItem d → PlainItem (d.map f)

/-- **C118.**  For all these types the end of the list is like a comma. -/
theorem c118_every_type_partial [Env] {α : Type} {d : Dict α} (h : PlainItem d) : d.EndsAlike := by
  induction h with
  | int conv => exact ends_int conv
  | u8 => exact ends_u8
  | bool => exact ends_bool
  | char => exact ends_char
  | string => exact ends_string
  | ident => exact ends_ident
  | literal => exact ends_literal
  | group => exact ends_group
  | unit => exact ends_unit
  | tokenStream => exact ends_tokenStream
  | flag => exact ends_flag
  | syn h => exact ends_syn h
  | synParen h => exact ends_synParen h
  | option _ ih => exact ends_option ih
  | wrapper _ ih => exact ends_wrapper ih
  | spannedValue _ ih => exact ends_spannedValue ih
  | array n d => exact ends_array n d
  | tuple ds => exact ends_tuple ds
  | seq d => exact ends_seq d
  | set d => exact ends_set d
  | map kd ks vd => exact ends_map kd ks vd
  | punctuated d a b => exact ends_punctuated d a b
  | fromStr conv => exact ends_fromStr conv
  | fromStrDefault conv d => exact ends_fromStrDefault conv d
  | modPath h => exact ends_modPath h
  | anyPath => exact ends_anyPath
  | quoted lex d => exact ends_quoted lex d
  | maybeQuoted lex _ ih => exact ends_maybeQuoted lex ih
  | withSyn h => exact ends_withSyn h
  | synQuoted lex p => exact ends_synQuoted lex p
  | identity _ ih => exact ends_identity ih
  | withOptional _ ih => exact ends_withOptional ih
  | withSeq d => exact ends_withSeq d
  | withMap kd ks vd => exact ends_withMap kd ks vd
  | struct d _ ih => exact ends_struct d ih
  | enum e => exact ends_enum e
  | embed f _ ih => exact ih.map f

/-- C118 in terms of outcomes: the value of an item does not depend on what follows it. -/
theorem c118_same_value [Env] {α : Type} {d : Dict α} (h : PlainItem d) (n : Str) (sp : Span) {v rest rest' : List Tok}
    (hv : NoComma v) (hb : Boundary rest) (hb' : Boundary rest') (sc : Span) (u : Option Span) (x : α) :
    (d.named n sp ⟨v ++ rest, sc, u⟩).1 = .ok x ↔ (d.named n sp ⟨v ++ rest', sc, u⟩).1 = .ok x := by
  rcases (c118_every_type_partial h).named n sp v sc u hv with ⟨y, w, u', _, h2⟩ | h2
  · rw [h2 rest hb, h2 rest' hb']
  · exact ⟨fun e => (h2 rest hb x _ (Prod.ext e rfl)).elim, fun e => (h2 rest' hb' x _ (Prod.ext e rfl)).elim⟩

/-- The same in a position. -/
theorem c118_same_value_unnamed [Env] {α : Type} {d : Dict α} (h : PlainItem d) (m : Mode) {v rest rest' : List Tok}
    (hv : NoComma v) (hb : Boundary rest) (hb' : Boundary rest') (sc : Span) (u : Option Span) (x : α) :
    (d.parse m ⟨v ++ rest, sc, u⟩).1 = .ok x ↔ (d.parse m ⟨v ++ rest', sc, u⟩).1 = .ok x := by
  rcases (c118_every_type_partial h).parse m v sc u hv with ⟨y, w, u', _, h2⟩ | h2
  · rw [h2 rest hb, h2 rest' hb']
  · exact ⟨fun e => (h2 rest hb x _ (Prod.ext e rfl)).elim, fun e => (h2 rest' hb' x _ (Prod.ext e rfl)).elim⟩

theorem EndsAlike.readsAs {α : Type} {p : M Stream α} (h : EndsAlike p) {v rest rest' : List Tok} {sc : Span} {x : α}
    (hv : NoComma v) (hb : Boundary rest) (hb' : Boundary rest') (hr : ReadsAs p v rest sc (.ok x)) :
    ReadsAs p v rest' sc (.ok x) := by
  intro u
  obtain ⟨u1, h1⟩ := hr u
  rcases h v sc u hv with ⟨y, w, u', _, h2⟩ | h2
  · have e := h2 rest hb
    rw [h1] at e
    simp only [Prod.mk.injEq, Res.ok.injEq, Stream.mk.injEq, List.self_eq_append_left, true_and] at e
    exact ⟨u', by rw [h2 rest' hb', e.2.1, e.1]; rfl⟩
  · exact absurd h1 (h2 rest hb _ _)

/-- An item that is read as a whole is read as a whole, and as the same value, wherever it stands. -/
theorem c118_item [Env] {α : Type} {d : Dict α} (h : PlainItem d) (n : Str) (sp : Span) {v rest rest' : List Tok}
    (hv : NoComma v) (hb : Boundary rest) (hb' : Boundary rest') (sc : Span) (x : α) :
    ReadsAs (d.named n sp) v rest sc (.ok x) ↔ ReadsAs (d.named n sp) v rest' sc (.ok x) :=
  ⟨((c118_every_type_partial h).named n sp).readsAs hv hb hb', ((c118_every_type_partial h).named n sp).readsAs hv hb' hb⟩

/-! ## A comma after the last item -/

/-- There is a last item, and no comma after it. -/
def NoTrailing (ts : List Tok) : Prop := ts ≠ [] ∧ ∀ ts' c, Comma c → ts ≠ ts' ++ [c]

theorem NoTrailing.tail {v rest : List Tok} {c : Tok} (h : NoTrailing (v ++ c :: rest)) (hc : Comma c) :
    NoTrailing rest := by
  refine ⟨fun e => ?_, fun ts' c' hc' e => ?_⟩
  · subst e
    exact h.2 v c hc rfl
  · subst e
    exact h.2 (v ++ c :: ts') c' hc' (by simp)

/-- Tokens up to the first comma. -/
theorem split_at_comma (ts : List Tok) : ∃ v rest, ts = v ++ rest ∧ NoComma v ∧ Boundary rest := by
  induction ts with
  | nil => exact ⟨[], [], rfl, by simp [NoComma], .inl rfl⟩
  | cons t ts ih =>
    by_cases hc : Comma t
    · exact ⟨[], t :: ts, rfl, by simp [NoComma], .inr ⟨t, ts, rfl, hc⟩⟩
    · obtain ⟨v, rest, rfl, hv, hb⟩ := ih
      refine ⟨t :: v, rest, rfl, fun x hx => ?_, hb⟩
      cases hx with
      | head => exact hc
      | tail _ hx => exact hv x hx

theorem Boundary.snoc {rest : List Tok} (h : Boundary rest) {c : Tok} (hc : Comma c) : Boundary (rest ++ [c]) := by
  rcases h with rfl | ⟨c', r, rfl, hc'⟩
  · exact .inr ⟨c, [], rfl, hc⟩
  · exact .inr ⟨c', r ++ [c], rfl, hc'⟩

/-- What is left begins with a comma, so nothing is left of the item. -/
theorem left_comma {w rest : List Tok} {c : Tok} {r : List Tok} (hw : NoComma w) (hc : Comma c)
    (e : w ++ rest = c :: r) : w = [] ∧ rest = c :: r := by
  cases w with
  | nil => exact ⟨rfl, e⟩
  | cons t w =>
    simp only [List.cons_append, List.cons.injEq] at e
    exact absurd hc (e.1 ▸ hw t (.head _))

theorem Reads.add_comma {α : Type} {p : M Stream α} (h : EndsAlike p) {c : Tok} (hc : Comma c) {s : Stream} {rs s1}
    (hr : Reads p s rs none s1) : NoTrailing s.toks →
      ∃ rs' s1', Reads p ⟨s.toks ++ [c], s.scope, s.unexp⟩ rs' none s1' ∧ rs'.map (·.1) = rs.map (·.1) := by
  generalize hf : (none : Option SynErr) = f at hr
  induction hr with
  | done h0 => exact fun hn => absurd h0 hn.1
  | @last s b s1 h0 h1 h2 =>
    intro hn
    obtain ⟨ts, sc, u⟩ := s
    obtain ⟨v, rest, rfl, hv, hb⟩ := split_at_comma ts
    rcases h v sc u hv with ⟨y, w, u', g1, g2⟩ | g2
    · have e := g2 rest hb
      rw [h1] at e
      simp only [Prod.mk.injEq, Res.ok.injEq] at e
      obtain ⟨rfl, rfl⟩ := e
      simp only [List.append_eq_nil_iff] at h2
      obtain ⟨rfl, rfl⟩ := h2
      refine ⟨_, _, .more (b := b) (s1 := ⟨[c], sc, u'⟩) (c := c) (rest := []) (by simp)
        (by have := g2 ([] ++ [c]) (hb.snoc hc); simpa using this) rfl hc (.done rfl), rfl⟩
    · exact absurd h1 (g2 rest hb _ _)
  | @more s b s1 c' r rs fatal s2 h0 h1 h2 hc' h3 ih =>
    intro hn
    obtain ⟨ts, sc, u⟩ := s
    obtain ⟨v, rest, rfl, hv, hb⟩ := split_at_comma ts
    rcases h v sc u hv with ⟨y, w, u', g1, g2⟩ | g2
    · have e := g2 rest hb
      rw [h1] at e
      simp only [Prod.mk.injEq, Res.ok.injEq] at e
      obtain ⟨rfl, rfl⟩ := e
      obtain ⟨rfl, rfl⟩ := left_comma (hv.suffix g1) hc' h2
      obtain ⟨rs', s1', i1, i2⟩ := ih hf (hn.tail hc')
      refine ⟨_, _, .more (b := b) (s1 := ⟨c' :: r ++ [c], sc, u'⟩) (c := c') (rest := r ++ [c]) (by simp)
        (by have := g2 (c' :: r ++ [c]) (hb.snoc hc); simpa using this) rfl hc' i1, by simp [i2]⟩
    · exact absurd h1 (g2 rest hb _ _)
  | failItem => cases hf
  | failSep => cases hf

theorem Reads.drop_comma {α : Type} {p : M Stream α} (h : EndsAlike p) {c : Tok} (hc : Comma c) {s : Stream} {rs s1}
    (hr : Reads p s rs none s1) : ∀ ts, s.toks = ts ++ [c] → NoTrailing ts →
      ∃ rs' s1', Reads p ⟨ts, s.scope, s.unexp⟩ rs' none s1' ∧ rs'.map (·.1) = rs.map (·.1) := by
  generalize hf : (none : Option SynErr) = f at hr
  induction hr with
  | done h0 => intro ts e; rw [h0] at e; simp at e
  | @last s b s1 h0 h1 h2 =>
    intro ts e hn
    obtain ⟨ts0, sc, u⟩ := s
    obtain ⟨v, rest, rfl, hv, hb⟩ := split_at_comma ts
    dsimp only at e
    subst e
    rcases h v sc u hv with ⟨y, w, u', g1, g2⟩ | g2
    · have e := g2 (rest ++ [c]) (hb.snoc hc)
      rw [List.append_assoc] at h1
      rw [h1] at e
      simp only [Prod.mk.injEq, Res.ok.injEq] at e
      rw [e.2] at h2
      simp at h2
    · exact absurd h1 (by rw [List.append_assoc]; exact g2 _ (hb.snoc hc) _ _)
  | @more s b s1 c' r rs fatal s2 h0 h1 h2 hc' h3 ih =>
    intro ts e hn
    obtain ⟨ts0, sc, u⟩ := s
    obtain ⟨v, rest, rfl, hv, hb⟩ := split_at_comma ts
    dsimp only at e
    subst e
    rcases h v sc u hv with ⟨y, w, u', g1, g2⟩ | g2
    · have e := g2 (rest ++ [c]) (hb.snoc hc)
      rw [List.append_assoc] at h1
      rw [h1] at e
      simp only [Prod.mk.injEq, Res.ok.injEq] at e
      obtain ⟨rfl, rfl⟩ := e
      obtain ⟨rfl, e2⟩ := left_comma (hv.suffix g1) hc' h2
      rcases hb with rfl | ⟨c'', r0, rfl, hc''⟩
      · simp only [List.nil_append, List.cons.injEq] at e2
        obtain ⟨rfl, rfl⟩ := e2
        cases hf
        have : rs = [] := by
          cases h3 with
          | done => rfl
          | last h => exact absurd rfl h
          | more h => exact absurd rfl h
        subst this
        refine ⟨_, _, .last (b := b) (s1 := ⟨[], sc, u'⟩) hn.1 (by have := g2 [] (.inl rfl); simpa using this) rfl, rfl⟩
      · simp only [List.cons_append, List.cons.injEq] at e2
        obtain ⟨rfl, rfl⟩ := e2
        obtain ⟨rs', s1', i1, i2⟩ := ih hf r0 rfl (hn.tail hc'')
        refine ⟨_, _, .more (b := b) (s1 := ⟨c'' :: r0, sc, u'⟩) (c := c'') (rest := r0) (by simp)
          (by have := g2 (c'' :: r0) (.inr ⟨_, _, rfl, hc''⟩); simpa using this) rfl hc' i1, by simp [i2]⟩
    · exact absurd h1 (by rw [List.append_assoc]; exact g2 _ (hb.snoc hc) _ _)
  | failItem => cases hf
  | failSep => cases hf

theorem Reads.recover {α : Type} {p : M Stream α} {s rs s1} (h : Reads p s rs none s1) :
    Reads (Deluxe.recover p) s (rs.map fun x => (.ok x.1, x.2)) none s1 := by
  generalize hf : (none : Option SynErr) = f at h
  induction h with
  | done h0 => exact .done h0
  | last h0 h1 h2 => exact .last h0 (by simp only [Deluxe.recover, h1]) h2
  | more h0 h1 h2 hc _ ih => exact .more h0 (by simp only [Deluxe.recover, h1]) h2 hc (ih hf)
  | failItem => cases hf
  | failSep => cases hf

/-- A list is accepted exactly if it can be read item by item. -/
theorem seq_iff {α : Type} (d : Dict α) (hd : Good (d.parse .unnamed)) (m : Mode) (s : Stream) (xs : List α) :
    ((seqDict d).inline m [s]).1 = .ok xs ↔ ∃ rs s1, Reads (d.parse .unnamed) s rs none s1 ∧ xs = rs.map (·.1) := by
  constructor
  · intro h
    generalize hl : ((seqDict d).inline m [s]).2 = l'
    obtain ⟨rs, h1, h2, _⟩ := c23_only_elements d hd m 0 [s] l' xs (Prod.ext h hl)
    cases h1 with
    | cons h1 h3 => cases h3; exact ⟨_, _, h1, by simpa using h2⟩
  · rintro ⟨rs, s1, h1, rfl⟩
    have h2 : ReadsAll (recover (d.parse .unnamed)) [s] (rs.map fun x => (.ok x.1, x.2)) none [s1] := by
      simpa using ReadsAll.cons h1.recover .nil
    have h3 := (fold_iff (recover_good hd) (fun k b _ _ => seqAdd k b) ⟨[], Errors.new⟩ _ [s] [s1] _).2
      ⟨_, none, h2, rfl, rfl⟩
    rw [foldReads_map] at h3
    rw [show stopped none = .ok () from rfl] at h3
    have h4 := runAcc_ok_of h3
    rw [← seqStep_eq] at h4
    have := seqAdd_fold ((rs.map fun x => ((.ok x.1 : Except SynErr α), x.2)).map (·.1)) ⟨[], Errors.new⟩
    have hok : (rs.map fun x => ((.ok x.1 : Except SynErr α), x.2)).map (·.1) = rs.map fun x => .ok x.1 := by simp
    have herr : ∀ l : List (α × Stream × Stream), errMsgs (l.map fun x => (.ok x.1 : Except SynErr α)) = [] := by
      intro l
      induction l with
      | nil => rfl
      | cons x l ih => simp only [List.map_cons, errMsgs, ih]
    rw [hok, okVals_map, herr] at this
    rw [hok] at h4
    refine (congrArg Prod.fst h4).trans ?_
    exact (intoResult_collects (w := rs.map (·.1)) (msgs := []) (by simpa using this.2) fun _ => by simpa using this.1).1
      rfl

/-- **C118.**  A comma after the last element of a list may be written or left out: the list is accepted or not, and its
elements are the same. -/
theorem c118_sequence {α : Type} (d : Dict α) (hd : Good (d.parse .unnamed)) (he : d.EndsAlike) (m : Mode)
    {ts : List Tok} (hn : NoTrailing ts) {c : Tok} (hc : Comma c) (sc : Span) (u : Option Span) (xs : List α) :
    ((seqDict d).inline m [⟨ts ++ [c], sc, u⟩]).1 = .ok xs ↔ ((seqDict d).inline m [⟨ts, sc, u⟩]).1 = .ok xs := by
  rw [seq_iff d hd, seq_iff d hd]
  constructor
  · rintro ⟨rs, s1, h1, rfl⟩
    obtain ⟨rs', s1', h2, h3⟩ := h1.drop_comma (he.parse _) hc ts rfl hn
    exact ⟨rs', s1', h2, h3.symm⟩
  · rintro ⟨rs, s1, h1, rfl⟩
    obtain ⟨rs', s1', h2, h3⟩ := h1.add_comma (he.parse _) hc hn
    exact ⟨rs', s1', h2, h3.symm⟩

/-- Well-formed lists in general: a comma at the end is allowed, if the meaning of an item does not depend on what
follows it. -/
theorem items_add_comma {β : Type} {seg : List Tok → List Tok → Span → β → Prop}
    (hs : ∀ v rest rest' sc b, Boundary rest → Boundary rest' → seg v rest sc b → seg v rest' sc b) {sc : Span}
    {ts : List Tok} {bs : List β} (h : Items seg sc ts bs) {c : Tok} (hc : Comma c) :
    NoTrailing ts → Items seg sc (ts ++ [c]) bs := by
  induction h with
  | nil => exact fun hn => absurd rfl hn.1
  | last _ h1 => exact fun _ => .cons hc (hs _ _ _ _ _ (.inl rfl) (.inr ⟨c, [], rfl, hc⟩) h1) .nil
  | @cons v c' rest b bs hc' h1 _ ih =>
    intro hn
    have := Items.cons hc' (hs _ _ (c' :: (rest ++ [c])) _ _ (.inr ⟨_, _, rfl, hc'⟩) (.inr ⟨_, _, rfl, hc'⟩) h1)
      (ih (hn.tail hc'))
    simpa using this

section
variable [Env] {V : Type}

/-- The item of a structure has no comma in it, and its value can be read. -/
def GoodSeg (fields : List (Field V)) (pre : Str) (v rest : List Tok) (sc : Span) (b : SItem V) : Prop :=
  StructSeg fields pre v rest sc b ∧ NoComma v ∧ ∀ i name sp e, b ≠ .field i name sp (.error e)

theorem goodSeg_anywhere {fields : List (Field V)} (hi : ∀ f ∈ fields, f.item.EndsAlike) {pre : Str} (v rest rest' : List Tok)
    (sc : Span) (b : SItem V) (hb : Boundary rest) (hb' : Boundary rest') (h : GoodSeg fields pre v rest sc b) :
    GoodSeg fields pre v rest' sc b := by
  obtain ⟨h1, h2, h3⟩ := h
  refine ⟨?_, h2, h3⟩
  cases h1 with
  | @field segs sp vt f i x hk ho hr =>
    refine .field hk ho ?_
    cases x with
    | error e => exact absurd rfl (h3 _ _ _ _)
    | ok a =>
      have hvt : NoComma vt := by
        cases hk with
        | mk => exact fun t ht => h2 t (List.mem_append_right _ ht)
      have hf : f ∈ fields := by
        obtain ⟨_, _, h, _⟩ := ho
        exact List.mem_of_getElem? h
      exact ((hi f hf).named _ _).readsAs hvt hb hb' hr
  | other hk ho hn => exact .other hk ho hn

omit [Env] in
theorem items_mono {β : Type} {seg seg' : List Tok → List Tok → Span → β → Prop} {sc : Span} {ts : List Tok} {bs : List β}
    (h : Items seg sc ts bs) (hs : ∀ v rest sc b, seg v rest sc b → seg' v rest sc b) : Items seg' sc ts bs := by
  induction h with
  | nil => exact .nil
  | last h0 h1 => exact .last h0 (hs _ _ _ _ h1)
  | cons hc h1 _ ih => exact .cons hc (hs _ _ _ _ h1) ih

omit [Env] in
theorem Source.of_flat {d : Fields V} {f : Field V} {g : Option (Except SynErr V)} {fl fl' ms : Res V} {o : Option V}
    (he : f.flatParsable = true → fl = fl') (h : Source d f g fl ms o) : Source d f g fl' ms o := by
  cases h with
  | item a b => exact .item a b
  | flat a b => exact .flat a (he a ▸ b)
  | container a b => exact .container a b
  | default a b => exact .default a b
  | missing a b c d e => exact .missing a b c d e
  | target a b c => exact .target a b c

omit [Env] in
theorem Ends.of_flat {d : Fields V} {f : Field V} {g : Option (Except SynErr V)} {fl fl' ms : Res V} {i : Nat} {v : V}
    (he : f.flatParsable = true → fl = fl') (h : Ends d f g fl ms i v) : Ends d f g fl' ms i v := by
  rcases h with ⟨b, h1, h2⟩ | ⟨h1, h2⟩
  · exact .inl ⟨b, h1.of_flat he, h2⟩
  · exact .inr ⟨h1.of_flat he, h2⟩

/-- **C118.**  The same for structures with named fields: a comma after the last item changes nothing, as far as it
changes nothing for the flattened fields. -/
theorem c118_struct (d : Fields V) (ha : Accepted d) (ht : d.transparent = false) (hg : FieldsGood d.fields)
    (hi : ∀ f ∈ d.fields, f.item.EndsAlike) (allowed : List Str) (k : Span) (pre : Str) (validate : Bool) {ts : List Tok}
    {sc : Span} {bs : List (SItem V)} (h : Items (GoodSeg d.fields pre) sc ts bs) (hn : NoTrailing ts) {c : Tok}
    (hc : Comma c) (u : Option Span)
    (hfl : ∀ f ∈ d.fields, f.flatParsable = true → ∀ i, flatOut d.fields pre k allowed [⟨ts ++ [c], sc, u⟩] f i =
      flatOut d.fields pre k allowed [⟨ts, sc, u⟩] f i) (vs : List V) :
    (namedFlat d allowed (.named k) pre validate [⟨ts ++ [c], sc, u⟩]).1 = .ok vs ↔
      (namedFlat d allowed (.named k) pre validate [⟨ts, sc, u⟩]).1 = .ok vs := by
  have h1 : ItemsAll (StructSeg d.fields pre) [⟨ts, sc, u⟩] (bs ++ []) :=
    .cons (items_mono h fun _ _ _ _ h => h.1) .nil
  have h2 : ItemsAll (StructSeg d.fields pre) [⟨ts ++ [c], sc, u⟩] (bs ++ []) :=
    .cons (items_mono (items_add_comma (goodSeg_anywhere hi) h hc hn) fun _ _ _ _ h => h.1) .nil
  rw [c31_struct d ha ht hg allowed _ pre validate h1 vs, c31_struct d ha ht hg allowed _ pre validate h2 vs]
  simp only [Holds, Mode.toFullSpan, Mode.namedSpan, Option.getD_some]
  constructor
  · rintro ⟨g1, g2, g3⟩
    refine ⟨g1, g2, fun i f hf => ?_⟩
    obtain ⟨v, e1, e2⟩ := g3 i f hf
    exact ⟨v, e1, e2.of_flat fun hp => hfl f (List.mem_of_getElem? hf) hp i⟩
  · rintro ⟨g1, g2, g3⟩
    refine ⟨g1, g2, fun i f hf => ?_⟩
    obtain ⟨v, e1, e2⟩ := g3 i f hf
    exact ⟨v, e1, e2.of_flat fun hp => (hfl f (List.mem_of_getElem? hf) hp i).symm⟩

/-- Items written one after the other, with a comma between. -/
def written (c : Tok) : List (List Tok) → List Tok
  | [] => []
  | [v] => v
  | v :: w :: vs => v ++ c :: written c (w :: vs)

omit [Env] in
theorem written_items {β : Type} {seg : List Tok → List Tok → Span → β → Prop}
    (hs : ∀ v rest rest' sc b, Boundary rest → Boundary rest' → seg v rest sc b → seg v rest' sc b) {sc : Span} {c : Tok}
    (hc : Comma c) : (xs : List (List Tok × β)) → (∀ x ∈ xs, x.1 ≠ [] ∧ seg x.1 [] sc x.2) →
      Items seg sc (written c (xs.map (·.1))) (xs.map (·.2))
  | [], _ => .nil
  | [x], h => .last (h x (.head _)).1 (h x (.head _)).2
  | x :: y :: xs, h => .cons hc (hs _ _ _ _ _ (.inl rfl) (.inr ⟨_, _, rfl, hc⟩) (h x (.head _)).2)
      (written_items hs hc (y :: xs) fun z hz => h z (.tail _ hz))

/-- **C118.**  Items may be written in another order: if each of them can be read on its own, then the structure is
accepted or not, with the same values, in whatever order they are written. -/
theorem c118_order (d : Fields V) (ha : Accepted d) (ht : d.transparent = false) (hg : FieldsGood d.fields)
    (hi : ∀ f ∈ d.fields, f.item.EndsAlike) (allowed : List Str) (k : Span) (pre : Str) (validate : Bool) {sc : Span}
    {xs ys : List (List Tok × SItem V)} (hx : ∀ x ∈ xs, x.1 ≠ [] ∧ GoodSeg d.fields pre x.1 [] sc x.2) (hp : xs.Perm ys)
    {c : Tok} (hc : Comma c) (u : Option Span)
    (hfl : ∀ f ∈ d.fields, f.flatParsable = true → ∀ i, flatOut d.fields pre k allowed
      [⟨written c (xs.map (·.1)), sc, u⟩] f i = flatOut d.fields pre k allowed [⟨written c (ys.map (·.1)), sc, u⟩] f i)
    (vs : List V) :
    (namedFlat d allowed (.named k) pre validate [⟨written c (xs.map (·.1)), sc, u⟩]).1 = .ok vs ↔
      (namedFlat d allowed (.named k) pre validate [⟨written c (ys.map (·.1)), sc, u⟩]).1 = .ok vs := by
  have h1 : ItemsAll (StructSeg d.fields pre) [⟨written c (xs.map (·.1)), sc, u⟩] (xs.map (·.2) ++ []) :=
    .cons (items_mono (written_items (goodSeg_anywhere hi) hc xs hx) fun _ _ _ _ h => h.1) .nil
  have h2 : ItemsAll (StructSeg d.fields pre) [⟨written c (ys.map (·.1)), sc, u⟩] (ys.map (·.2) ++ []) :=
    .cons (items_mono (written_items (goodSeg_anywhere hi) hc ys fun x h => hx x (hp.mem_iff.2 h)) fun _ _ _ _ h => h.1) .nil
  rw [List.append_nil] at h1 h2
  exact c32_order d ha ht hg allowed (.named k) pre validate h1 h2 (hp.map _) rfl
    (fun i f hf hp v => by
      have := hfl f (List.mem_of_getElem? hf) hp i
      simp only [Mode.toFullSpan, Mode.namedSpan, Option.getD_some]
      rw [this]) vs

end

/-! ## Where it is not so -/

/-- The span of a `SpannedValue` reaches to the comma, or, for the last item, to the end of the list. -/
theorem c118_spanned_violated : ¬ ∀ (v rest rest' : List Tok) (x : Spanned Bool), NoComma v → Boundary rest →
    Boundary rest' → ((@spannedDict positions Bool boolDict).parse .unnamed ⟨v ++ rest, 9, none⟩).1 = .ok x →
      ((@spannedDict positions Bool boolDict).parse .unnamed ⟨v ++ rest', 9, none⟩).1 = .ok x := by
  intro h
  have := h [.ident "true".toList 1] [] [.punct ',' false 2] ⟨true, 9⟩
    (by intro t ht; simp at ht; subst ht; rintro ⟨_, _, h⟩; cases h) (.inl rfl) (.inr ⟨_, _, rfl, _, _, rfl⟩) rfl
  cases this

/-- `TokenTree` takes the comma for its value, where there is one. -/
theorem c118_tokenTree_violated : ¬ tokenTreeDict.EndsAlike := by
  intro h
  rcases h.parse .unnamed [] 0 none (by simp [NoComma]) with ⟨x, w, u', _, h2⟩ | h2
  · have := congrArg Prod.fst (h2 [] (.inl rfl))
    cases this
  · exact h2 [.punct ',' false 1] (.inr ⟨_, _, rfl, _, _, rfl⟩) _ _ rfl

/-- `Option<bool>`: `Some(true)` at the end and before a comma. -/
example [Env] (rest : List Tok) (hb : Boundary rest) :
    ((optionDict boolDict).parse .unnamed ⟨[.ident "Some".toList 1, .group .paren [.ident "true".toList 2] 3 4] ++ rest, 9,
        none⟩).1 = .ok (some true) :=
  (c118_same_value_unnamed (.option .bool) .unnamed (rest := [])
    (by intro t ht; simp at ht; rcases ht with rfl | rfl <;> rintro ⟨_, _, h⟩ <;> cases h) (.inl rfl) hb 9 none _).1 rfl

/-- `[true, false]` and `[true, false,]`. -/
example : NoTrailing [.ident "true".toList 1, .punct ',' false 2, .ident "false".toList 3] ∧
    ((seqDict boolDict).inline .unnamed
      [⟨[.ident "true".toList 1, .punct ',' false 2, .ident "false".toList 3], 9, none⟩]).1 = .ok [true, false] := by
  refine ⟨⟨by simp, fun ts' c hc e => ?_⟩, rfl⟩
  obtain ⟨j, sp, rfl⟩ := hc
  have := congrArg List.getLast? e
  simp at this

/-- The items `a` and `bb = true` of the structure `demo`, which can be exchanged. -/
example [Env] : ∀ x ∈ [([Tok.ident "a".toList 1], SItem.field 0 "a".toList 1 (.ok true)),
      ([.ident "bb".toList 3, .punct '=' false 4, .ident "true".toList 5], .field 1 "b".toList 3 (.ok true))],
    x.1 ≠ [] ∧ GoodSeg demo.fields [] x.1 [] 10 x.2 := by
  intro x hx
  simp only [List.mem_cons, List.not_mem_nil, or_false] at hx
  rcases hx with rfl | rfl
  · refine ⟨by simp, .field (segs := ["a".toList]) (vt := []) (.mk (pt := [.ident "a".toList 1]) (.plain (.one _ _))
      (by simp [StartsColon2])) (demo_owns rfl) (fun u => ⟨u, rfl⟩), ?_, by simp⟩
    intro t ht; simp at ht; subst ht; rintro ⟨_, _, h⟩; cases h
  · refine ⟨by simp, .field (segs := ["bb".toList]) (vt := [.punct '=' false 4, .ident "true".toList 5])
      (.mk (pt := [.ident "bb".toList 3]) (.plain (.one _ _)) (by simp [StartsColon2])) (demo_owns rfl)
      (fun u => ⟨u, rfl⟩), ?_, by simp⟩
    intro t ht; simp at ht; rcases ht with rfl | rfl | rfl <;> rintro ⟨_, _, h⟩ <;> cases h

end Deluxe
